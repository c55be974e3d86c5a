import Verif.Spec.SharedMay
/-!
# Specification: what a program may conclude from the answers it got

The sessions of `Verif/Spec/Durable.lean` and `Verif/Spec/SharedMay.lean`, with the answers that the operations gave.
-/

set_option autoImplicit false

namespace Verif.Spec

open Verif

/-! ## One process -/

/-- Run a program through a handle, and note the answers. -/
def runNoted (env : Env) : Block → Session → M (List BAns × Block)
  | bb, .stop => pure ([], bb)
  | bb, .call op k => do
    let (x, bb) ← runBOp env bb op
    let (xs, bb) ← runNoted env bb (k x)
    pure (x :: xs, bb)

/-- The program got the answers `xs`, and this took it from `S` to `S'`. -/
inductive Went (env : Env) (K : Kind) : Durable → Session → List BAns → Durable → Prop
  | stop (S : Durable) : Went env K S .stop [] S
  | step (S S1 S' : Durable) (op : BOp) (x : BAns) (k : BAns → Session) (xs : List BAns) : S.Outcome env K op x S1 →
      Went env K S1 (k x) xs S' → Went env K S (.call op k) (x :: xs) S'

/-- No operation answered with an error code (operations on attributes have answers of their own). -/
def Session.NoError : Session → List BAns → Prop
  | .call op k, x :: xs => ((∃ a, op = .attr a) ∨ x.rc = 0) ∧ (k x).NoError xs
  | _, _ => True

/-- The answers and the state at the end are those of a run in which nothing failed. -/
def Session.AsIf (env : Env) (K : Kind) : Session → List BAns → Durable → Durable → Prop
  | .stop, [], S, S' => S' = S
  | .call op k, x :: xs, S, S' => S.now.answers env K op x ∧ (k x).AsIf env K xs (S.next env K op) S'
  | _, _, _, _ => False

/-! ## Several processes -/

/-- Run a collective program through the handles of `n` processes, and note the answers. -/
def runMNoted (env : Env) (n : Nat) : (Nat → Block) → MSession → Phases (List (Nat → BAns) × (Nat → Block))
  | H, .stop => pure ([], H)
  | H, .call op k => do
    let (x, H) ← runMOp env n H op
    let (xs, H) ← runMNoted env n H (k x)
    pure (x :: xs, H)

/-- The processes got the answers `xs`, and this took them from `S` to `S'`. -/
inductive WentAll (env : Env) (K : Kind) (n : Nat) : Durable → MSession → List (Nat → BAns) → Durable → Prop
  | stop (S : Durable) : WentAll env K n S .stop [] S
  | step (S S1 S' : Durable) (op : MOp) (x : Nat → BAns) (k : (Nat → BAns) → MSession) (xs : List (Nat → BAns)) :
      S.OutcomeAll env K n op x S1 → WentAll env K n S1 (k x) xs S' → WentAll env K n S (.call op k) (x :: xs) S'

/-- Process `r` saw no error code (operations on attributes have answers of their own). -/
def MSession.NoError (r : Nat) : MSession → List (Nat → BAns) → Prop
  | .call op k, x :: xs => ((∃ a, op = .attr a) ∨ (x r).rc = 0) ∧ (k x).NoError r xs
  | _, _ => True

/-- The answers and the state at the end are those of a run in which nothing failed. -/
def MSession.AsIf (env : Env) (K : Kind) (n : Nat) : MSession → List (Nat → BAns) → Durable → Durable → Prop
  | .stop, [], S, S' => S' = S
  | .call op k, x :: xs, S, S' => S.now.answersAll env K n op x ∧ (k x).AsIf env K n xs (S.nextAll env K n op) S'
  | _, _, _, _ => False

end Verif.Spec
