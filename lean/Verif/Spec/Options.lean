import Verif.C.Text
/-!
# Specification: command lines
-/

set_option autoImplicit false

namespace Verif.Spec

open Verif

/-- An option as a user means it: a letter, or a letter and a value. -/
inductive Given where
  | flag (c : Byte)
  | value (c : Byte) (v : CStr)

/-- The letter and the value. -/
def Given.pair : Given → Byte × Option CStr
  | .flag c => (c, none)
  | .value c v => (c, some v)

/-- How it can be written: `-c`, `-c v` or `-cv`. `takes` tells which letters are options, and which take values. -/
inductive Given.Written (takes : Byte → Option Bool) : Given → List CStr → Prop where
  | flag {c : Byte} (h : takes c = some false) : Written takes (.flag c) [[45, c]]
  | apart {c : Byte} {v : CStr} (h : takes c = some true) : Written takes (.value c v) [[45, c], v]
  | joined {c : Byte} {v : CStr} (h : takes c = some true) (hv : v ≠ []) : Written takes (.value c v) [45 :: c :: v]

/-- A word that does not look like an option: it does not begin with `-`, or it is `-`. -/
def Plain (w : CStr) : Prop := w.head? ≠ some 45 ∨ w = b!"-"

/-- A command line: options, then operands; `--` may separate them, and must if an operand looks like an option. A letter that takes no
value may stand before others in the same word. -/
inductive CmdLine (takes : Byte → Option Bool) : List Given → List CStr → List CStr → Prop where
  | operands {ops : List CStr} (h : ∀ w ∈ ops, Plain w) : CmdLine takes [] ops ops
  | dashes (ops : List CStr) : CmdLine takes [] ops (b!"--" :: ops)
  | option {g : Given} {gs : List Given} {ops ws rest : List CStr} (h : g.Written takes ws) (hr : CmdLine takes gs ops rest) :
      CmdLine takes (g :: gs) ops (ws ++ rest)
  | cluster {c : Byte} {w : CStr} {gs : List Given} {ops rest : List CStr} (h : takes c = some false) (hw : w ≠ []) (hd : w.head? ≠ some 45)
      (hr : CmdLine takes gs ops ((45 :: w) :: rest)) : CmdLine takes (.flag c :: gs) ops ((45 :: c :: w) :: rest)

/-- Options and operands that do not look like options, in any order. Letters may share a word as above. -/
inductive Mixed (takes : Byte → Option Bool) : List Given → List CStr → List CStr → Prop where
  | nil : Mixed takes [] [] []
  | operand {w : CStr} {gs : List Given} {ops rest : List CStr} (h : Plain w) (hr : Mixed takes gs ops rest) : Mixed takes gs (w :: ops) (w :: rest)
  | option {g : Given} {gs : List Given} {ops ws rest : List CStr} (h : g.Written takes ws) (hr : Mixed takes gs ops rest) :
      Mixed takes (g :: gs) ops (ws ++ rest)
  | cluster {c : Byte} {w : CStr} {gs : List Given} {ops rest : List CStr} (h : takes c = some false) (hw : w ≠ []) (hd : w.head? ≠ some 45)
      (hr : Mixed takes gs ops ((45 :: w) :: rest)) : Mixed takes (.flag c :: gs) ops ((45 :: c :: w) :: rest)

/-- What any version of `getopt` must understand, and what that of GNU must. -/
def Understood (gnu : Bool) (takes : Byte → Option Bool) (gs : List Given) (ops words : List CStr) : Prop :=
  CmdLine takes gs ops words ∨ gnu = true ∧ Mixed takes gs ops words

/-- The option was given. -/
def Has (gs : List Given) (c : Byte) : Prop := ∃ g ∈ gs, g = .flag c

/-- The value of the option, the last one if there are several. -/
def lastValue (c : Byte) : List Given → Option CStr
  | [] => none
  | .value c' v :: gs => (lastValue c gs).or (if c' = c then some v else none)
  | .flag _ :: gs => lastValue c gs

/-- The option was not given and the parameter has its default, or the option was given and says in words what the parameter is. -/
def LastSets {α : Type} (gs : List Given) (c : Byte) (text : α → CStr) (dflt x : α) : Prop :=
  (lastValue c gs = none ∧ x = dflt) ∨ lastValue c gs = some (text x)

/-- Another name for an option that takes a value: `a` is read as `b`. -/
def Given.alias (a b : Byte) : Given → Given
  | .value c v => .value (if c = a then b else c) v
  | .flag c => .flag c

/-- A number of files as the value of an option; -1 stands for none. -/
def countStr : Option Nat → CStr
  | none => b!"-1"
  | some n => decStr n

end Verif.Spec
