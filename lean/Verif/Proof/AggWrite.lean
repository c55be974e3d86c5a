import Verif.Proof.Throttle
import Verif.Proof.WriteOps
import Verif.Proof.Simple
import Verif.Proof.AttrSet
import Verif.Proof.ConvertSimple
import Verif.Props.Transfer
/-!
# What one segment does in a collective write
-/

set_option autoImplicit false

namespace Verif

open Spec

/-! ## Without crashes -/

theorem FOp.run_ok (op : FOp) (w : World) (h : ∀ t m, w.faults t ≠ .crash m) : ∃ a w', op.run w = .ok a w' := by
  cases hop : op.run w with
  | ok a w' => exact ⟨a, w', rfl⟩
  | crash w' =>
    exfalso
    obtain ⟨a, nd, he⟩ := FOp.exec_some op (f := w.faults w.clock) (h _) w.fs.node
    cases op with
    | fopen path mode =>
      cases hf : w.faults w.clock with
      | crash m => exact h _ _ hf
      | _ =>
        cases mode <;> rcases hn : w.fs.node (resolve path) with _ | (_ | d) <;>
        by_cases hp : w.fs.node (resolve path).dropLast = some .dir <;>
        simp [FOp.run, Verif.fopen, bind, M.bind, tick, pure, M.pure, getFS, setFS, die, hf, hn, hp] at hop
    | fwrite path off bs =>
      cases hf : w.faults w.clock with
      | crash m => exact h _ _ hf
      | _ => simp [FOp.run, fwriteAt, bind, M.bind, tick, pure, M.pure, getFS, setFS, die, hf] at hop
    | fread path off len =>
      cases hf : w.faults w.clock with
      | crash m => exact h _ _ hf
      | _ => simp [FOp.run, freadAt, bind, M.bind, tick, pure, M.pure, getFS, die, hf] at hop
  | ub =>
    exfalso
    cases op with
    | fopen path mode =>
      cases mode <;> cases hf : w.faults w.clock <;> rcases hn : w.fs.node (resolve path) with _ | (_ | d) <;>
        by_cases hp : w.fs.node (resolve path).dropLast = some .dir <;>
        simp [FOp.run, Verif.fopen, bind, M.bind, tick, pure, M.pure, getFS, setFS, die, hf, hn, hp] at hop
    | fwrite path off bs =>
      cases hf : w.faults w.clock <;>
        simp [FOp.run, fwriteAt, bind, M.bind, tick, pure, M.pure, getFS, setFS, die, hf] at hop
    | fread path off len =>
      cases hf : w.faults w.clock <;>
        simp [FOp.run, freadAt, bind, M.bind, tick, pure, M.pure, getFS, die, hf] at hop
  | hang =>
    exfalso
    cases op with
    | fopen path mode =>
      cases mode <;> cases hf : w.faults w.clock <;> rcases hn : w.fs.node (resolve path) with _ | (_ | d) <;>
        by_cases hp : w.fs.node (resolve path).dropLast = some .dir <;>
        simp [FOp.run, Verif.fopen, bind, M.bind, tick, pure, M.pure, getFS, setFS, die, hf, hn, hp] at hop
    | fwrite path off bs =>
      cases hf : w.faults w.clock <;>
        simp [FOp.run, fwriteAt, bind, M.bind, tick, pure, M.pure, getFS, setFS, die, hf] at hop
    | fread path off len =>
      cases hf : w.faults w.clock <;>
        simp [FOp.run, freadAt, bind, M.bind, tick, pure, M.pure, getFS, die, hf] at hop

theorem interp_no_crash {α : Type} (p : Prog α) : ∀ (w w' : World), (∀ t m, w.faults t ≠ .crash m) → p.interp w ≠ .crash w' := by
  induction p with
  | ret a => intro w w' _ h; cases h
  | ub => intro w w' _ h; cases h
  | hang => intro w w' _ h; cases h
  | coll c v k ih => intro w w' _ h; cases h
  | file op k ih =>
    intro w w' hf h
    have h' : M.bind op.run (fun r => (k r).interp) w = .crash w' := h
    unfold M.bind at h'
    obtain ⟨a, w1, h1⟩ := op.run_ok w hf
    rw [h1] at h'
    exact ih a w1 w' (by rw [(FOp.run_exec h1).2.1]; exact hf) h'

theorem wpc_returns' {α : Type} {p : Prog α} {w : World} {Q : α → World → Prop} {C : World → Prop}
    (h : wpc p.interp w Q C) (hf : ∀ t m, w.faults t ≠ .crash m) : ∃ x w', p.interp w = .ok x w' ∧ Q x w' := by
  unfold wpc at h
  cases hp : p.interp w with
  | ok x w' => rw [hp] at h; exact ⟨x, w', rfl, h⟩
  | crash w' => exact absurd hp (interp_no_crash p w w' hf)
  | ub => rw [hp] at h; exact h.elim
  | hang => rw [hp] at h; exact h.elim

/-! ## Converting no elements -/

theorem dtypeConvert_none (m : Machine) (fo : FloatOps) (di si : Iter) (dm sm : Mem)
    (hd : di.arr.strides ≠ []) (hs : si.arr.strides ≠ []) :
    ∃ r, dtypeConvert m fo di si 0 dm sm = some r ∧ r.dm = dm ∧ r.sm = sm := by
  have hb : ∀ (it : Iter) (mem : Mem), byteSwap m it 0 mem = some mem := by
    intro it mem; unfold byteSwap; simp only; split <;> rfl
  have hb' : ∀ (p : Prop) [Decidable p] (it : Iter) (mem : Mem),
      (if p then byteSwap m it 0 mem else some mem) = some mem := by
    intro p _ it mem; rw [hb]; split <;> rfl
  obtain ⟨r, hr, h2, h3⟩ : ∃ r, cast m fo di si 0 dm sm = some r ∧ r.dm = dm ∧ r.sm = sm := by
    unfold cast
    split
    · split
      · rw [List.getLast?_eq_some_getLast hd, List.getLast?_eq_some_getLast hs]
        simp only
        refine ⟨_, rfl, ?_, rfl⟩
        simp only [Int.natCast_zero, Int.zero_mul]
        rfl
      · simp only [castLoop]
        exact ⟨_, rfl, rfl, rfl⟩
    · split
      · exact ⟨_, rfl, rfl, rfl⟩
      · simp only [castLoop]
        exact ⟨_, rfl, rfl, rfl⟩
  unfold dtypeConvert
  rw [hb']
  simp only [hr]
  split
  · exact ⟨_, rfl, h2, rfl⟩
  · rw [h2, hb']
    exact ⟨_, rfl, rfl, rfl⟩

/-! ## Rows and bytes -/

theorem flatN_range (g : Nat → List Byte) (n : Nat) : flatN g n = ((List.range n).map g).flatten := by
  induction n with
  | zero => rfl
  | succ n ih => simp only [flatN, List.range_succ, List.map_append, List.flatten_append, ih]; simp

theorem flatten_piece (l : List (List Byte)) (L : Nat) (h : ∀ x ∈ l, x.length = L) (i : Nat) (hi : i < l.length) :
    (l.flatten.drop (i * L)).take L = l.getD i [] := by
  have e : l = (List.range l.length).map (fun i => l.getD i []) := by
    apply List.ext_getElem (by simp)
    intro i h1 h2
    simp [h1]
  have hf : l.flatten = flatN (fun i => l.getD i []) l.length := by rw [flatN_range, ← e]
  rw [hf]
  apply flatN_piece _ l.length L ?_ i hi
  intro j hj
  apply h
  rw [List.getD_eq_getElem?_getD, List.getElem?_eq_getElem hj]
  exact List.getElem_mem hj

theorem flatten_length (l : List (List Byte)) (L : Nat) (h : ∀ x ∈ l, x.length = L) : l.flatten.length = l.length * L := by
  induction l with
  | nil => simp
  | cons a l ih =>
    rw [List.flatten_cons, List.length_append, ih (fun x hx => h x (by simp [hx])), h a (by simp), List.length_cons,
      Nat.add_mul, Nat.one_mul, Nat.add_comm]

/-- The rows of a list put from row `p` on. -/
def putList (m : Machine) (bb : Block) (p : Nat) (l : List (List Byte)) (nd : Nodes) : Nodes :=
  (putRows m bb ⟨nd, []⟩ p (fun i => l.getD i []) l.length).node

theorem putRows_node {m : Machine} {bb : Block} {fs fs' : FS} {p n : Nat} {rows : Nat → List Byte}
    (h : fs.node = fs'.node) : (putRows m bb fs p rows n).node = (putRows m bb fs' p rows n).node := by
  induction n with
  | zero => exact h
  | succ n ih =>
    simp only [putRows, putRow]
    rw [putBytes_eq, putBytes_eq, ih]

theorem putList_nil (m : Machine) (bb : Block) (p : Nat) (nd : Nodes) : putList m bb p [] nd = nd := rfl

theorem putList_append (m : Machine) (bb : Block) (p : Nat) (a b : List (List Byte)) (nd : Nodes) :
    putList m bb p (a ++ b) nd = putList m bb (p + a.length) b (putList m bb p a nd) := by
  unfold putList
  rw [List.length_append, putRows_add]
  have h1 : putRows m bb ⟨nd, []⟩ p (fun i => (a ++ b).getD i []) a.length =
      putRows m bb ⟨nd, []⟩ p (fun i => a.getD i []) a.length := by
    apply putRows_congr
    intro i hi
    simp [List.getD_eq_getElem?_getD, List.getElem?_append_left hi]
  have h2 : ∀ fs, putRows m bb fs (p + a.length) (fun i => (a ++ b).getD (a.length + i) []) b.length =
      putRows m bb fs (p + a.length) (fun i => b.getD i []) b.length := by
    intro fs
    apply putRows_congr
    intro i hi
    simp [List.getD_eq_getElem?_getD, List.getElem?_append_right]
  rw [h1, h2]
  exact putRows_node rfl

/-! ## The leader -/

section
variable {env : Env} {bb : Block} {w nm : Nat}

/-- The program in `leadWrite` after the seek. -/
theorem leadWrite_eq (st : Rank) (off : Int) (tot : Nat) (bytes : List Byte) {garr : Arr} {rc : Int} {ptr1 : Ptr}
    (hg : arrayInit env.m 0 st.bb.dtype [tot, u64 st.bb.nmemb] none = some garr)
    (hsk : seekRel st.bb st.ptr off = some (rc, ptr1)) :
    leadWrite env st off tot bytes =
      (blockWriteP env st.bb ptr1 garr (poke env.junk 0 bytes)).bind fun x => .ret (x.rc, x.bb) := by
  unfold leadWrite
  rw [hg, hsk]
  rfl

theorem Spec.BlockOk.reshape {bb bb' : Block} (h : BlockOk env bb w nm) (hs : SameShape bb bb') (hL : Layout bb') :
    BlockOk env bb' w nm :=
  ⟨hL, by rw [hs.dtype]; exact h.item, h.item0, by rw [hs.nmemb]; exact h.memb, h.memb0, h.felInt, h.buf, h.bufMax,
    by rw [hs.fsize]; exact h.offs⟩

theorem Spec.SameShape.symm {bb bb' : Block} (h : SameShape bb bb') : SameShape bb' bb :=
  ⟨h.dtype.symm, h.nmemb.symm, h.base.symm, h.size.symm, h.fsize.symm, h.foffset.symm, h.nfile.symm⟩

theorem Spec.SameShape.trans {a b c : Block} (h : SameShape a b) (h' : SameShape b c) : SameShape a c :=
  ⟨h'.dtype.trans h.dtype, h'.nmemb.trans h.nmemb, h'.base.trans h.base, h'.size.trans h.size,
    h'.fsize.trans h.fsize, h'.foffset.trans h.foffset, h'.nfile.trans h.nfile⟩

/-- Moving a pointer forward inside the block. -/
theorem seekRel_forward {bb : Block} (hL : Layout bb) {ptr : Ptr} {p off : Nat} (hp : PointsTo bb ptr p)
    (h : p + off ≤ bb.size) : ∃ ptr1, seekRel bb ptr (off : Int) = some (0, ptr1) ∧ PointsTo bb ptr1 (p + off) := by
  have hsm := hL.small
  have hsz := hL.size
  rw [seekRel_spec bb hL ptr p hp off ⟨by omega, by omega⟩]
  obtain ⟨q, h1, h2, _⟩ := seek_nat bb hL ptr (p + off) (by omega)
  refine ⟨q, ?_, h2⟩
  rw [← h1]
  congr 1

/-- What else a write does to a handle: the attributes stay, the dirty flag is set if there were rows. -/
structure Marked (b b' : Block) (tot : Nat) : Prop where
  attrs : b'.attrset = b.attrset
  kept : b.dirty = true → b'.dirty = true
  set : 0 < tot → b'.dirty = true

/-- The leader writes rows from a pointer to row `q` on. -/
theorem leadWrite_at {F : Nat → Nat → Fault} (hF : NoCrash F) {n r : Nat} (hr : r < n) {E : Event → Prop}
    {st : Rank} (hb : BlockOk env st.bb w nm) (hsh : SameShape bb st.bb) {q tot : Nat} {ptr1 : Ptr}
    (hpt : PointsTo st.bb ptr1 q) (hrange : q + tot ≤ bb.size)
    (hE : ∀ op f, 0 < tot → WriteIn env.m bb q tot op → E (.file r op f))
    (l : List (List Byte)) (hl : l.length = tot) (hlen : ∀ x ∈ l, x.length = w * nm)
    {s : Conf (Int × Rank)} {K : Int × Block → Prog (Int × Rank)}
    (hs : (s.thr r).prog = (blockWriteP env st.bb ptr1 (freshArr env.m st.bb.dtype tot nm w 0) (poke env.junk 0 l.flatten)).bind
      fun x => K (x.rc, x.bb)) :
    ∃ s' e bb', Moves F n [r] E s s' ∧ (s'.thr r).prog = K (e, bb') ∧ SameShape bb bb' ∧ BlockOk env bb' w nm ∧
      Marked st.bb bb' tot ∧
      (e = 0 → (∀ i, i < tot → IsFile ⟨s.nodes, []⟩ (fileKey bb.basename (.data (rowFile bb (q + i))))) ∧
        s'.nodes = putList env.m bb q l s.nodes ∧
        ∀ f, bb'.fchecksum.getD f 0 = (st.bb.fchecksum.getD f 0 +
          rowsSum bb q (fun i => l.getD i []) f tot) % 4294967296) ∧
      (e ≠ 0 → ¬ (F r = noFaults ∧ DataFiles ⟨s.nodes, []⟩ bb)) := by
  have hL := hb.layout
  have hsm := hL.small
  have hsz := hL.size
  have hoffs := hb.offs
  have hw := hb.item0
  have hnm := hb.memb0
  have hwnm := hb.felInt
  have hbytes : tot * nm * w < 9223372036854775808 := by
    have h1 := Nat.mul_le_mul_right (w * nm) (show tot ≤ st.bb.fsize.sum by rw [← hsz, hsh.size]; omega)
    have h2 : tot * nm * w = tot * (w * nm) := by rw [Nat.mul_assoc, Nat.mul_comm nm w]
    omega
  by_cases h0 : tot = 0
  · subst h0
    have hl0 : l = [] := List.length_eq_zero_iff.mp hl
    have : blockWriteP env st.bb ptr1 (freshArr env.m st.bb.dtype 0 nm w 0) (poke env.junk 0 l.flatten) =
        .ret ⟨0, st.bb, ptr1, poke env.junk 0 l.flatten⟩ := by
      unfold blockWriteP
      rw [if_pos (by simp [freshArr])]
      rfl
    rw [this] at hs
    refine ⟨s, 0, st.bb, Moves.refl _ _ _ _ _, hs, hsh, hb, ⟨rfl, id, by omega⟩, fun _ => ⟨by intro i hi; omega, by rw [hl0, putList_nil], ?_⟩, fun h => absurd rfl h⟩
    intro f
    simp only [rowsSum, Nat.add_zero]
    rw [Nat.mod_eq_of_lt]
    rw [List.getD_eq_getElem?_getD]
    cases hf : st.bb.fchecksum[f]? with
    | none => simp
    | some c => exact hL.ck32 c (List.mem_of_getElem? hf)
  · -- the array of the leader
    let gmem := poke env.junk 0 l.flatten
    let garr := freshArr env.m st.bb.dtype tot nm w 0
    have hfl : l.flatten.length = tot * (w * nm) := by rw [flatten_length l (w * nm) hlen, hl]
    have hx : XferOk env st.bb garr w w nm := hb.fresh st.bb.dtype tot w 0 (by omega) hb.item hw hbytes
    have hrows : garr.size / nm = tot := freshArr_rows _ _ _ _ _ _ hnm
    have hlw : LegalWrite env st.bb ptr1 garr gmem q w w nm (fun e => peek gmem ((e * w : Nat) : Int) w) := by
      refine ⟨hx, fun _ => freshArr_disjoint _ _ _ _ _ _, hpt, by rw [hrows, hsh.size]; exact hrange, ?_⟩
      intro e he
      rw [hrows] at he
      have ha : elemAddr garr e = ((e * w : Nat) : Int) := by rw [freshArr_addr _ _ _ _ _ _ _ he]; simp
      rw [ha]
      exact convElem_same _ _ _ _
    have hrow : ∀ i, i < tot → rowOfElems (fun e => peek gmem ((e * w : Nat) : Int) w) nm i = l.getD i [] := by
      intro i hi
      unfold rowOfElems
      have e1 : (fun j => peek gmem (((i * nm + j) * w : Nat) : Int) w) =
          fun j => peek gmem (((i * (w * nm) : Nat) : Int) + (j * w : Nat)) w := by
        funext j
        congr 1
        have : (i * nm + j) * w = i * (w * nm) + j * w := by
          rw [Nat.add_mul, Nat.mul_assoc, Nat.mul_comm nm w]
        rw [this]
        omega
      rw [e1, ← peek_flatN]
      have h2 := peek_poke_sub env.junk 0 l.flatten (i * (w * nm)) (nm * w) (by
        rw [hfl]
        have := Nat.mul_le_mul_right (w * nm) (show i + 1 ≤ tot from hi)
        rw [Nat.add_mul, Nat.one_mul] at this
        rw [Nat.mul_comm nm w]
        exact this)
      rw [Int.zero_add] at h2
      show peek gmem _ _ = _
      rw [h2, Nat.mul_comm nm w]
      exact flatten_piece l (w * nm) hlen i (by omega)
    have hspec := hlw.spec ⟨⟨s.nodes, []⟩, F r, (s.thr r).clock⟩
    rw [← interp_blockWrite] at hspec
    obtain ⟨x, w', hrun, hdone⟩ := wpc_returns' hspec (fun t m => hF r t m)
    have hops := blockWriteP_ops env st.bb garr w w nm hx ptr1 q gmem hpt (by
      rw [hrows, ← hsz, hsh.size]; exact hrange)
    rw [hrows] at hops hdone
    obtain ⟨_, es, hes, hev⟩ := run_alone (F := F) hr (s := s) (k := fun x => K (x.rc, x.bb)) hrun
      (hops.mono (fun op => WriteIn.shape hsh))
      (by show s.thr r = ⟨_, (s.thr r).clock⟩
          rw [show (blockWriteP env st.bb ptr1 garr gmem).bind (fun x => K (x.rc, x.bb)) = (s.thr r).prog from hs.symm]) rfl rfl
    refine ⟨_, x.rc, x.bb, ⟨⟨es, hes, ?_⟩, ?_⟩, ?_, hsh.trans hdone.shape, hb.reshape hdone.shape hdone.layout,
      ⟨hdone.attrs, fun _ => hdone.dirty, fun _ => hdone.dirty⟩, ?_, ?_⟩
    · intro e he
      obtain ⟨op, t, rfl, ho⟩ := hev e he
      exact hE op _ (by omega) ho
    · intro q hq
      simp only [List.mem_singleton] at hq
      simp [Conf.put, hq]
    · simp [Conf.put]
    · intro h0
      obtain ⟨h1, h2, _⟩ := hdone.done h0
      refine ⟨?_, ?_, ?_⟩
      · intro i hi
        have := h2 i hi
        unfold rowFile at this ⊢
        rw [hsh.base, hsh.fsize] at this
        exact this
      · show w'.fs.node = _
        rw [h1, hsh.putRows]
        unfold putList
        rw [hl]
        exact congrArg FS.node (putRows_congr hrow)
      · intro f
        rw [hdone.cksum h0 f, hsh.rowsSum, rowsSum_congr hrow]
    · intro hne ⟨h1, h2⟩
      exact hne (hdone.succeeds h1 ((hsh.dataFiles _).mpr h2))

/-- The leader writes the rows of its segment. -/
theorem leadWrite_run {F : Nat → Nat → Fault} (hF : NoCrash F) {n r : Nat} (hr : r < n) {E : Event → Prop}
    {st : Rank} (hb : BlockOk env st.bb w nm) (hsh : SameShape bb st.bb) {p off tot : Nat}
    (hp : PointsTo bb st.ptr p) (hrange : p + off + tot ≤ bb.size)
    (hE : ∀ op f, 0 < tot → WriteIn env.m bb (p + off) tot op → E (.file r op f))
    (l : List (List Byte)) (hl : l.length = tot) (hlen : ∀ x ∈ l, x.length = w * nm)
    {s : Conf (Int × Rank)} {K : Int × Block → Prog (Int × Rank)}
    (hs : (s.thr r).prog = (leadWrite env st (off : Int) tot l.flatten).bind K) :
    ∃ s' e bb', Moves F n [r] E s s' ∧ (s'.thr r).prog = K (e, bb') ∧ SameShape bb bb' ∧ BlockOk env bb' w nm ∧
      Marked st.bb bb' tot ∧
      (e = 0 → (∀ i, i < tot → IsFile ⟨s.nodes, []⟩ (fileKey bb.basename (.data (rowFile bb (p + off + i))))) ∧
        s'.nodes = putList env.m bb (p + off) l s.nodes ∧
        ∀ f, bb'.fchecksum.getD f 0 = (st.bb.fchecksum.getD f 0 +
          rowsSum bb (p + off) (fun i => l.getD i []) f tot) % 4294967296) ∧
      (e ≠ 0 → ¬ (F r = noFaults ∧ DataFiles ⟨s.nodes, []⟩ bb)) := by
  have hL := hb.layout
  have hsm := hL.small
  have hsz := hL.size
  have hoffs := hb.offs
  have hw := hb.item0
  have hnm := hb.memb0
  have hwnm := hb.felInt
  have hbytes : tot * nm * w < 9223372036854775808 := by
    have h1 := Nat.mul_le_mul_right (w * nm) (show tot ≤ st.bb.fsize.sum by rw [← hsz, hsh.size]; omega)
    have h2 : tot * nm * w = tot * (w * nm) := by rw [Nat.mul_assoc, Nat.mul_comm nm w]
    omega
  have hg := hb.freshInit st.bb.dtype tot w 0 hb.item hw hbytes
  obtain ⟨ptr1, hsk, hpt⟩ := seekRel_forward hL (hsh.pointsTo hp) (off := off) (by rw [hsh.size]; omega)
  rw [leadWrite_eq st off tot l.flatten hg hsk, Prog.bind_assoc] at hs
  exact leadWrite_at hF hr hb hsh hpt hrange hE l hl hlen hs

end

end Verif
