import Verif.Model.ErrMsg
/-!
# Specification: error messages
-/

set_option autoImplicit false

namespace Verif

/-- The buffers that only this thread knows: its copies of a message, the message it took away and will release. -/
def EPc.holds : EPc → List Nat
  | .ready => []
  | .dup _ mine => mine.toList
  | .swap p mine => p.toList ++ mine.toList
  | .drop old mine => old.toList ++ mine.toList
  | .release b => [b]
  | _ => []

namespace Spec

/-- The error message after a call of `big_file_set_error_message`, or after an error was raised: the formatted text and the place. -/
def message : EOp → Option CStr
  | .set msg => msg
  | .raise msg args file line => vfmt false (msg ++ b!" @(" ++ file ++ b!":" ++ decStr line ++ b!")") args
  | _ => none

/-- A call that sets a message or raises an error with a message of its own; the text is at most 511 characters longer than its
parts before formatting. -/
def Sets : EOp → Prop
  | .set _ => True
  | .raise msg args file line => line < 2147483648 ∧
    ∃ t, message (.raise msg args file line) = some t ∧ t.length < msg.length + file.length + 512
  | _ => False

/-- The current message. -/
def current (sh : EShared) : Option CStr := sh.cur.bind sh.text

/-- Before the calls: there is no message, or there is one in the only buffer in use. -/
def Quiet (sh : EShared) : Prop := ∀ p, (sh.text p).isSome ↔ sh.cur = some p

/-- No directive in a text. -/
def NoPercent (s : CStr) : Prop := 37 ∉ s

/-- The message after a call made while nobody else makes one. Raising again adds the place to the message there is. -/
def messageAfter (cur : Option CStr) : EOp → Option CStr
  | .get => cur
  | .reraise file line => some (cur.getD b!"UNKNOWN ERROR" ++ b!" @(" ++ file ++ b!":" ++ decStr line ++ b!")")
  | op => message op

/-- The call may be made when this is the message: a message that is raised again must not contain a percent sign, for it is
used as a format. -/
def MayCall (cur : Option CStr) : EOp → Prop
  | .get => True
  | .reraise file line => line < 2147483648 ∧ NoPercent (cur.getD []) ∧ NoPercent file
  | op => Sets op

/-- The calls may be made one after the other. -/
def MayCallAll : Option CStr → List EOp → Prop
  | _, [] => True
  | cur, op :: ops => MayCall cur op ∧ MayCallAll (messageAfter cur op) ops

end Spec

end Verif
