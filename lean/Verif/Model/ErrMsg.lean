import Verif.C.Text
/-!
# Error messages

Models the error message of `/repo/src/bigfile.c`: a global pointer to a buffer on the heap, exchanged by any number of threads.
Each access to the pointer or to a buffer is one step of one thread. Simplified: a number is never given to a second buffer, so
using a released buffer is always noticed; `malloc` does not fail; memory is sequentially consistent.
-/

set_option autoImplicit false

namespace Verif

/-- What all threads share: the buffers, `none` when released, and `ERRORSTR` (bigfile.c:28-33). -/
structure EShared where
  bufs : List (Option CStr)
  cur : Option Nat
  deriving DecidableEq

/-- The text of a buffer; `none` when it was released or never allocated. (bigfile.c:30-33, 98-101.) -/
def EShared.text (s : EShared) (p : Nat) : Option CStr := (s.bufs[p]?).join

/-- `malloc`, with what is written to the buffer afterwards. (bigfile.c:107, 168.) -/
def EShared.malloc (s : EShared) (t : CStr) : EShared := { s with bufs := s.bufs ++ [some t] }

/-- `free`: undefined unless the buffer is allocated. (bigfile.c:124, 178.) -/
def EShared.free (s : EShared) (p : Nat) : Option EShared :=
  match s.text p with
  | some _ => some { s with bufs := s.bufs.set p none }
  | none => none

/-- `if(p) free(p)`. (bigfile.c:124.) -/
def EShared.drop (s : EShared) : Option Nat → Option EShared
  | none => some s
  | some p => s.free p

/-- Characters between `%` and the letter of a directive. (bigfile.c:170-175.) -/
def fmtModifier (c : Byte) : Bool := c == 108 || c == 116 || c == 122 || c == 104 || (48 ≤ c && c ≤ 57)

/-- Letters of a directive that takes an argument: `s d i u x X p g f c`. (bigfile.c:170-175.) -/
def fmtLetter (c : Byte) : Bool :=
  c == 115 || c == 100 || c == 105 || c == 117 || c == 120 || c == 88 || c == 112 || c == 103 || c == 102 || c == 99

/-- `vsprintf`. An argument is given as the text it is printed as. Undefined if there are too few arguments or the directive is not
known. The flag says that we are inside of a directive. (bigfile.c:170-175.) -/
def vfmt : Bool → CStr → List CStr → Option CStr
  | false, [], _ => some []
  | true, [], _ => none
  | false, c :: r, a => if c = 37 then vfmt true r a else (vfmt false r a).map (c :: ·)
  | true, c :: r, a =>
    if c = 37 then (vfmt false r a).map (c :: ·)
    else if fmtModifier c then vfmt true r a
    else if fmtLetter c then
      match a with
      | [] => none
      | x :: a => (vfmt false r a).map (x ++ ·)
    else none

/-- `" @(%s:%d)"` (bigfile.c:171). -/
def raisePlace (file : CStr) (line : Nat) : CStr := b!" @(" ++ file ++ b!":" ++ decStr line ++ b!")"

/-- The text that `_big_file_raise` makes (bigfile.c:167-175); undefined if it or the format does not fit in the buffer. -/
def raiseText (msg : CStr) (args : List CStr) (file : CStr) (line : Nat) : Option CStr :=
  let len := msg.length + file.length + 512
  let fmtstr := msg ++ raisePlace file line
  if fmtstr.length < len then
    match vfmt false fmtstr args with
    | some t => if t.length < len then some t else none
    | none => none
  else none

/-- The calls a thread makes. (bigfile.c:99-125, 156-179.) -/
inductive EOp where
  /-- `big_file_set_error_message(msg)` -/
  | set (msg : Option CStr)
  /-- `_big_file_raise(msg, file, line, ...)` -/
  | raise (msg : CStr) (args : List CStr) (file : CStr) (line : Nat)
  /-- `_big_file_raise(NULL, file, line)` -/
  | reraise (file : CStr) (line : Nat)
  /-- `big_file_get_error_message()`, and the caller reads the text -/
  | get
  deriving DecidableEq

/-- Where a thread is in its call. `mine` is the buffer `errorstr` of `_big_file_raise`. (bigfile.c:99-125, 156-179.) -/
inductive EPc where
  | ready
  /-- `_strdup(msg)` -/
  | dup (msg : Option CStr) (mine : Option Nat)
  /-- the exchange -/
  | swap (p mine : Option Nat)
  /-- `ERRORSTR = msg` where there is no atomic exchange -/
  | put (p old mine : Option Nat)
  /-- `if(errorstr) free(errorstr)` -/
  | drop (old mine : Option Nat)
  /-- `free(errorstr)` in `_big_file_raise` -/
  | release (mine : Nat)
  /-- `msg = ERRORSTR` -/
  | load
  /-- the text of `msg` is used -/
  | use (p : Option Nat)
  /-- the caller of `big_file_get_error_message` uses the text -/
  | look (p : Option Nat)
  deriving DecidableEq

/-- A thread: the call it is in, if any, is the first of `ops`. (bigfile.c:99-125, 156-179.) -/
structure EThread where
  pc : EPc
  ops : List EOp
  deriving DecidableEq

/-- `_big_file_raise` (bigfile.c:156-179) up to the call of `big_file_set_error_message`. -/
def raiseStart (s : EShared) (msg : CStr) (args : List CStr) (file : CStr) (line : Nat) : Option (EShared × EPc) :=
  match raiseText msg args file line with
  | none => none
  | some t => some (s.malloc t, .dup none (some s.bufs.length))

/-- The end of `big_file_set_error_message`: back to `_big_file_raise` if that called it. (bigfile.c:124-125, 177.) -/
def EThread.back (t : EThread) : Option Nat → EThread
  | none => ⟨.ready, t.ops.tail⟩
  | some b => ⟨.release b, t.ops⟩

/-- One step of a thread (bigfile.c:98-125, 156-179); `none` when behaviour is undefined. `atomic` says whether there is an atomic
exchange (bigfile.c:109-121). A finished thread stays as it is. -/
def estep (atomic : Bool) (s : EShared) (t : EThread) : Option (EShared × EThread) :=
  match t.pc with
  | .ready =>
    match t.ops with
    | [] => some (s, t)
    | .set msg :: _ => some (s, { t with pc := .dup msg none })
    | .raise msg args file line :: _ => (raiseStart s msg args file line).map fun r => (r.1, { t with pc := r.2 })
    | .reraise file line :: _ =>
      match s.cur with
      | some _ => some (s, { t with pc := .load })
      | none => (raiseStart s b!"UNKNOWN ERROR" [] file line).map fun r => (r.1, { t with pc := r.2 })
    | .get :: _ => some (s, { t with pc := .look s.cur })
  | .load => some (s, { t with pc := .use s.cur })
  | .use p =>
    match p.bind s.text, t.ops with
    | some msg, .reraise file line :: _ => (raiseStart s msg [] file line).map fun r => (r.1, { t with pc := r.2 })
    | _, _ => none
  | .look p =>
    match p with
    | none => some (s, ⟨.ready, t.ops.tail⟩)
    | some b => (s.text b).map fun _ => (s, ⟨.ready, t.ops.tail⟩)
  | .dup msg none =>
    match msg with
    | none => some (s, { t with pc := .swap none none })
    | some m => some (s.malloc m, { t with pc := .swap (some s.bufs.length) none })
  | .dup _ (some b) => (s.text b).map fun m => (s.malloc m, { t with pc := .swap (some s.bufs.length) (some b) })
  | .swap p mine =>
    if atomic then some ({ s with cur := p }, { t with pc := .drop s.cur mine })
    else some (s, { t with pc := .put p s.cur mine })
  | .put p old mine => some ({ s with cur := p }, { t with pc := .drop old mine })
  | .drop old mine => (s.drop old).map fun s => (s, t.back mine)
  | .release b => (s.free b).map fun s => (s, ⟨.ready, t.ops.tail⟩)

/-- The threads and what they share. (bigfile.c:30-33, 99-179.) -/
structure ESys where
  sh : EShared
  ths : List EThread
  deriving DecidableEq

/-- The thread has nothing left to do. (bigfile.c:99-179.) -/
def EThread.finished (t : EThread) : Prop := t.pc = .ready ∧ t.ops = []

instance (t : EThread) : Decidable t.finished := by unfold EThread.finished; infer_instance

/-- One thread, whichever, makes a step. (bigfile.c:99-125, 156-179.) -/
inductive EStep (atomic : Bool) : ESys → ESys → Prop
  | step {S : ESys} {i : Nat} {t t' : EThread} {sh' : EShared} (hi : S.ths[i]? = some t) (hf : ¬ t.finished)
      (h : estep atomic S.sh t = some (sh', t')) : EStep atomic S ⟨sh', S.ths.set i t'⟩

/-- Some number of steps. (bigfile.c:99-125, 156-179.) -/
inductive ERun (atomic : Bool) : Nat → ESys → ESys → Prop
  | nil (S : ESys) : ERun atomic 0 S S
  | step {n : Nat} {S T U : ESys} (h : ERun atomic n S T) (hs : EStep atomic T U) : ERun atomic (n + 1) S U

/-- Some thread can do something undefined. (bigfile.c:99-125, 156-179.) -/
def ESys.Undefined (atomic : Bool) (S : ESys) : Prop :=
  ∃ (i : Nat) (t : EThread), S.ths[i]? = some t ∧ ¬ t.finished ∧ estep atomic S.sh t = none

/-- All threads have returned. (bigfile.c:99-179.) -/
def ESys.finished (S : ESys) : Prop := ∀ t ∈ S.ths, t.finished

/-- Threads that are about to make these calls. (bigfile.c:99-179.) -/
def ESys.start (sh : EShared) (progs : List (List EOp)) : ESys := ⟨sh, progs.map fun ops => ⟨.ready, ops⟩⟩

end Verif
