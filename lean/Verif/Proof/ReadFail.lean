import Verif.Props.ReadSimple
/-!
# Reading when the first file cannot be opened
-/

set_option autoImplicit false

namespace Verif

open Spec

theorem readChunk_noFile (bb : Block) (f : Nat) (off fel : Int) (c : Nat) (wd : World) (hf : wd.faults wd.clock = .fail) :
    readChunk bb f off fel c wd = .ok none { wd with clock := wd.clock + 1 } := by
  unfold readChunk openAFile
  have h : fopen (filePath bb.basename (.data f)) .r wd = .ok false { wd with clock := wd.clock + 1 } := by
    unfold fopen
    show M.bind tick _ wd = _
    unfold M.bind tick
    simp only [hf]
    rfl
  show M.bind (fopen _ _) _ wd = _
  unfold M.bind
  rw [h]
  rfl

/-- If the data file of the first row cannot be opened, `big_block_read_simple` gives -1 and nothing has changed. -/
theorem readSimple_noFile {env : Env} {bb : Block} {w nm : Nat} (h : BlockOk env bb w nm) (off n : Nat) (buf : Int) (mem : Mem) (wd : World)
    (hn0 : 0 < n) (hoff : off + n ≤ bb.size) (hf : wd.faults wd.clock = .fail) :
    readSimple env bb off n none buf mem wd = .ok (-1, none, mem) { wd with clock := wd.clock + 1 } := by
  have hsm := h.layout.small
  have hsz := h.layout.size
  have hoffs := h.offs
  have hbytes : n * nm * w < 9223372036854775808 := by
    have h3 : n * (w * nm) ≤ bb.fsize.sum * (w * nm) := Nat.mul_le_mul_right _ (by omega)
    rw [Nat.mul_assoc, Nat.mul_comm nm]
    omega
  have hw : wpc (readSimple env bb off n none buf mem) wd
      (fun x w' => x = (-1, none, mem) ∧ w' = { wd with clock := wd.clock + 1 }) (fun _ => False) := by
    obtain ⟨ptr, hs, hp, _⟩ := (C01_seek bb h.layout ⟨0, 0, 0⟩ (off : Int) ⟨by omega, by omega⟩).1 ⟨by omega, by omega⟩
    rw [if_neg (by omega), Int.toNat_natCast] at hp
    unfold readSimple
    simp only [Option.getD_none]
    rw [wpc_bind, hs, wpc_lift_some]
    simp only [ne_eq, not_true_eq_false, if_false]
    have e : (if u64 ((off : Int) + (n : Int)) > bb.size then i64 ((bb.size : Int) - (off : Int)) else (n : Int)) = (n : Int) := by
      rw [show (off : Int) + (n : Int) = ((off + n : Nat) : Int) by omega, u64_of_nat (by omega), if_neg (by omega)]
    rw [e, if_neg (by omega), Int.toNat_natCast, wpc_bind, h.freshInit _ n w buf h.item h.item0 hbytes, wpc_lift_some, wpc_bind]
    have hx := h.fresh bb.dtype n w buf hn0 h.item h.item0 hbytes
    have hrow := freshArr_rows env.m bb.dtype n nm w buf h.memb0
    unfold blockRead blockReadFuel
    rw [wpc_bind]
    show wpc (M.lift (elemSizes env bb)) _ _ _
    rw [hx.elemSizes, wpc_lift_some]
    simp only
    rw [wpc_bind, hx.bufInit, wpc_lift_some, wpc_bind]
    rw [hx.rows_i64, hrow]
    obtain ⟨fo, hfo, hrange⟩ := range_check h.layout hp (show off ≤ bb.fsize.sum by omega) (show n < 9223372036854775808 by omega)
    rw [hfo, wpc_lift_some, if_neg (by rw [hrange]; omega)]
    unfold loopFuel
    simp only [readLoop]
    rw [wpc_bind, eof_spec bb h.layout ptr off hp (by omega), wpc_lift_some]
    have hcond : (!(decide ((n : Int) > 0) && !decide (off = bb.fsize.sum))) = false := by
      have h1 : decide ((n : Int) > 0) = true := decide_eq_true (by omega)
      have h2 : decide (off = bb.fsize.sum) = false := decide_eq_false (by omega)
      rw [h1, h2]; rfl
    rw [hcond]
    simp only [Bool.false_eq_true, if_false]
    obtain ⟨c, hc1, hc0, _⟩ := chunkSize_spec bb h.layout ptr off n (env.chunkBytes / (w * nm)) hp (by omega) hn0 hx.cs0
    rw [wpc_bind, hc1, wpc_lift_some, if_neg (by omega), wpc_bind]
    unfold wpc
    rw [readChunk_noFile _ _ _ _ _ _ hf]
    exact ⟨rfl, rfl⟩
  unfold wpc at hw
  split at hw
  · obtain ⟨h1, h2⟩ := hw
    subst h1 h2
    assumption
  all_goals exact absurd hw id

end Verif
