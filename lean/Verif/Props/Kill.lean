import Verif.Proof.Kill
import Verif.Props.Conc
/-!
# C57: concurrent writers to disjoint rows, with failures and killed processes
-/

set_option autoImplicit false

namespace Verif

open Spec

theorem row_node {m : Machine} {fs fs' : FS} (h : fs.node = fs'.node) (bb : Block) (r : Nat) :
    row m fs bb r = row m fs' bb r := by
  unfold row FS.bytes
  rw [h]

/-- What a write, complete or not, may have done to the files: rows `p, ..., p+n-1` are to become `new`. -/
structure PartWritten (m : Machine) (bb : Block) (p n : Nat) (new : Nat → List Byte) (nd nd' : Nodes) : Prop where
  out : ∀ r, r < p ∨ p + n ≤ r → Stored m ⟨nd, []⟩ bb r → row m ⟨nd', []⟩ bb r = row m ⟨nd, []⟩ bb r
  path : ∀ k, (∀ i, i < n → k ≠ fileKey bb.basename (.data (rowFile bb (p + i)))) → nd' k = nd k
  torn : ∀ i, i < n → Stored m ⟨nd, []⟩ bb (p + i) →
    ∃ k, row m ⟨nd', []⟩ bb (p + i) = (new i).take k ++ (row m ⟨nd, []⟩ bb (p + i)).drop k

/-- One process, at any moment of its run. -/
theorem alone_write {env : Env} {bb : Block} {ptr : Ptr} {a : Arr} {mem : Mem} {p w sw nm : Nat} {stored : Nat → List Byte}
    (hw : LegalWrite env bb ptr a mem p w sw nm stored) {F : Nat → Fault} {nd nd' : Nodes} {t : Nat} {q : Prog Xfer}
    (h : Alone F (blockWriteP env bb ptr a mem) nd t q nd') :
    PartWritten env.m bb p (a.size / nm) (rowOfElems stored nm) nd nd' ∧ q ≠ .ub ∧ (∀ c, ¬ q.WaitsAt c) ∧
    (∀ x, q = .ret x → x.rc = 0 → ∀ i, i < a.size / nm → row env.m ⟨nd', []⟩ bb (p + i) = rowOfElems stored nm i) := by
  obtain ⟨w', hnd, hcase⟩ := h.interp ⟨⟨nd, []⟩, fun i => if i < t then F i else .crash 0, 0⟩ rfl rfl
    (fun i hi => if_pos hi)
  rw [interp_blockWrite] at hcase
  obtain ⟨fs, hfs, h1, h2, h3⟩ := C09_interrupted env bb ptr a mem p w sw nm stored
    ⟨⟨nd, []⟩, fun i => if i < t then F i else .crash 0, 0⟩ hw
  have key : fs.node = nd' → PartWritten env.m bb p (a.size / nm) (rowOfElems stored nm) nd nd' := by
    intro e
    have hr : ∀ r, row env.m ⟨nd', []⟩ bb r = row env.m fs bb r := fun r => row_node e.symm bb r
    exact ⟨fun r hr' hs => by rw [hr]; exact h1 r hr' hs, fun k hk => by rw [← e]; exact h2 k hk,
      fun i hi hs => by rw [hr]; exact h3 i hi hs⟩
  rcases hcase with ⟨hcl, hfa, hrun⟩ | ⟨rfl, hrun⟩
  · cases q with
    | ret x =>
      have hrun' : blockWrite env bb ptr a mem ⟨⟨nd, []⟩, fun i => if i < t then F i else .crash 0, 0⟩ = .ok x w' := hrun
      rw [hrun'] at hfs
      refine ⟨key ?_, nofun, fun c hc => hc, ?_⟩
      · rw [← hnd, ← Option.some.inj hfs]
      · intro y hy hrc i hi
        cases hy
        rw [row_node (fs' := w'.fs) hnd.symm]
        exact C10_write env bb ptr a mem p w sw nm stored _ w' x hw hrun' hrc i hi
    | ub => rw [show blockWrite env bb ptr a mem _ = .ub from hrun] at hfs; cases hfs
    | hang => rw [show blockWrite env bb ptr a mem _ = .hang from hrun] at hfs; cases hfs
    | coll c l k => rw [show blockWrite env bb ptr a mem _ = .hang from hrun] at hfs; cases hfs
    | file op k =>
      refine ⟨key ?_, nofun, fun c hc => hc, nofun⟩
      have hf0 : w'.faults w'.clock = .crash 0 := by rw [hcl, hfa]; exact if_neg (Nat.lt_irrefl _)
      have hall := blockWriteP_ops env bb a w sw nm hw.ok ptr p mem hw.points (by rw [← hw.ok.layout.size]; exact hw.range)
      have hop := (h.allOps hall).1
      have hdo : (op.does (.crash 0) w'.fs.node) = (none, w'.fs.node) := by
        cases op with
        | fread path off len => exact hop.elim
        | fopen path mode =>
          cases mode with
          | r => exact hop.elim
          | w => exact hop.elim
          | rplus => rw [does_rplus]
        | fwrite path off bs => rw [does_fwrite]; simp [reachLen, putBytes_nil]
      have hrun' : blockWrite env bb ptr a mem ⟨⟨nd, []⟩, fun i => if i < t then F i else .crash 0, 0⟩ =
        M.bind op.run (fun r => (k r).interp) w' := hrun
      unfold M.bind at hrun'
      rcases FOp.run_does (op := op) w' with ⟨b, w2, e1, e2, _⟩ | ⟨w2, e1, e2⟩
      · rw [hf0, hdo] at e2; cases e2
      · rw [hf0, hdo] at e2
        rw [hrun', e1] at hfs
        have := Option.some.inj hfs
        rw [← this, ← hnd]
        exact (Prod.mk.inj e2).2.symm
  · rw [hrun] at hfs
    refine ⟨key ?_, nofun, fun c hc => hc, nofun⟩
    rw [← hnd, ← Option.some.inj hfs]

/-- **C57, interrupted.** `n` processes write to disjoint ranges of rows of a block. Their file operations may be interleaved in any way,
any operation may fail, and any process may be killed inside an operation or stop. At every moment:

* no process has met undefined behaviour;
* a stored row that is in no process's range is unchanged;
* a path that is not the data file of a row in some range is unchanged;
* a stored row in the range of process `i` is a prefix of its new row followed by the old bytes;
* if process `i` has returned 0, all its rows are stored. -/
theorem C57_interrupted (env : Env) (bb : Block) (w nm n : Nat) (W : Nat → Writer) (fs : FS) (F : Nat → Nat → Fault) (s : Conf Xfer)
    (h : DisjointWriters env bb w nm n W) (hrun : KRun F n (startAll env W fs) s) :
    (∀ i, i < n → (s.thr i).prog ≠ .ub) ∧
    (∀ r, (∀ i, i < n → r < (W i).row ∨ (W i).row + (W i).arr.size / nm ≤ r) → Stored env.m fs bb r →
      row env.m ⟨s.nodes, []⟩ bb r = row env.m fs bb r) ∧
    (∀ k, (∀ i, i < n → ∀ j, j < (W i).arr.size / nm → k ≠ fileKey bb.basename (.data (rowFile bb ((W i).row + j)))) →
      s.nodes k = fs.node k) ∧
    (∀ i, i < n → ∀ j, j < (W i).arr.size / nm → Stored env.m fs bb ((W i).row + j) →
      ∃ k, row env.m ⟨s.nodes, []⟩ bb ((W i).row + j) =
        (rowOfElems (W i).stored nm j).take k ++ (row env.m fs bb ((W i).row + j)).drop k) ∧
    (∀ i, i < n → ∀ x, (s.thr i).prog = .ret x → x.rc = 0 → ∀ j, j < (W i).arr.size / nm →
      row env.m ⟨s.nodes, []⟩ bb ((W i).row + j) = rowOfElems (W i).stored nm j) := by
  have one : ∀ i, i < n → ∀ nd t q nd', Alone (F i) ((W i).prog env) nd t q nd' →
      PartWritten env.m bb (W i).row ((W i).arr.size / nm) (rowOfElems (W i).stored nm) nd nd' ∧ q ≠ .ub ∧ (∀ c, ¬ q.WaitsAt c) ∧
      (∀ x, q = .ret x → x.rc = 0 → ∀ j, j < (W i).arr.size / nm →
        row env.m ⟨nd', []⟩ bb ((W i).row + j) = rowOfElems (W i).stored nm j) := by
    intro i hi nd t q nd' ha
    obtain ⟨h1, h2, h3, h4⟩ := alone_write (h.legal i hi) ha
    have hs := h.shape i hi
    refine ⟨⟨?_, ?_, ?_⟩, h2, h3, ?_⟩
    · intro r hr hst
      have := h1.out r hr (by unfold Stored; rw [hs.row, hs.rowSize]; exact hst)
      rwa [hs.row, hs.row] at this
    · intro k hk
      refine h1.path k fun j hj => ?_
      rw [hs.base, hs.rowFile]
      exact hk j hj
    · intro j hj hst
      have := h1.torn j hj (by unfold Stored; rw [hs.row, hs.rowSize]; exact hst)
      rwa [hs.row, hs.row] at this
    · intro x hx hrc j hj
      have := h4 x hx hrc j hj
      rwa [hs.row] at this
  have hser := hrun.serial (E := fun i => WriteIn env.m bb (W i).row ((W i).arr.size / nm))
    (fun _ _ => rfl)
    (fun i hi => by
      have hL := h.legal i hi
      have hops := blockWriteP_ops env (W i).bb (W i).arr w (W i).sw nm hL.ok (W i).ptr (W i).row (W i).mem hL.points
        (by rw [← hL.ok.layout.size]; exact hL.range)
      exact hops.mono (fun op => WriteIn.shape (h.shape i hi)))
    (fun i hi nd t p nd' ha => (one i hi nd t p nd' ha).2.2.1)
    (fun i j hi hj hne o o' f f' ho ho' => ho.doCommute (h.disjoint i j hi hj hne) ho' f f')
  have hlen : ∀ i, i < n → ∀ j, j < (W i).arr.size / nm → (rowOfElems (W i).stored nm j).length = rowSize env.m bb := by
    intro i hi j hj
    rw [(h.legal i hi).row_length j hj, (h.shape i hi).rowSize]
  have hfs : ∀ r, row env.m ⟨fs.node, []⟩ bb r = row env.m fs bb r := fun r => row_node rfl bb r
  have main : ∀ m nd', Serial F (fun r => ((startAll env W fs).thr r).prog) fs.node s.thr m nd' → m ≤ n →
      (∀ i, i < m → (s.thr i).prog ≠ .ub) ∧
      (∀ r, (∀ i, i < m → r < (W i).row ∨ (W i).row + (W i).arr.size / nm ≤ r) → Stored env.m fs bb r →
        row env.m ⟨nd', []⟩ bb r = row env.m fs bb r) ∧
      (∀ k, (∀ i, i < m → ∀ j, j < (W i).arr.size / nm → k ≠ fileKey bb.basename (.data (rowFile bb ((W i).row + j)))) →
        nd' k = fs.node k) ∧
      (∀ i, i < m → ∀ j, j < (W i).arr.size / nm → Stored env.m fs bb ((W i).row + j) →
        ∃ k, row env.m ⟨nd', []⟩ bb ((W i).row + j) =
          (rowOfElems (W i).stored nm j).take k ++ (row env.m fs bb ((W i).row + j)).drop k) ∧
      (∀ i, i < m → ∀ x, (s.thr i).prog = .ret x → x.rc = 0 → ∀ j, j < (W i).arr.size / nm →
        row env.m ⟨nd', []⟩ bb ((W i).row + j) = rowOfElems (W i).stored nm j) := by
    intro m
    induction m with
    | zero =>
      intro nd' hs _
      cases hs
      exact ⟨nofun, fun r _ _ => hfs r, fun _ _ => rfl, nofun, nofun⟩
    | succ m ih =>
      intro nd' hs hm
      cases hs with
      | @snoc _ nd1 _ hs1 ha =>
        obtain ⟨i1, i2, i3, i4, i5⟩ := ih nd1 hs1 (by omega)
        obtain ⟨a1, a2, _, a4⟩ := one m (by omega) _ _ _ _ ha
        have lift : ∀ i, i < m → ∀ j, j < (W i).arr.size / nm → Stored env.m ⟨nd1, []⟩ bb ((W i).row + j) →
            row env.m ⟨nd', []⟩ bb ((W i).row + j) = row env.m ⟨nd1, []⟩ bb ((W i).row + j) := by
          intro i hi j hj hst
          refine a1.out _ ?_ hst
          have := h.disjoint i m (by omega) (by omega) (by omega)
          omega
        refine ⟨?_, ?_, ?_, ?_, ?_⟩
        · intro i hi
          by_cases e : i = m
          · subst e; exact a2
          · exact i1 i (by omega)
        · intro r hr hst
          have e1 := i2 r (fun i hi => hr i (by omega)) hst
          rw [a1.out r (hr m (by omega)) (by unfold Stored; rw [e1]; exact hst), e1]
        · intro k hk
          rw [a1.path k (hk m (by omega)), i3 k (fun i hi => hk i (by omega))]
        · intro i hi j hj hst
          by_cases e : i = m
          · subst e
            have e1 := i2 ((W i).row + j) (fun q hq => by
              have := h.disjoint i q (by omega) (by omega) (by omega)
              omega) hst
            obtain ⟨k, hk⟩ := a1.torn j hj (by unfold Stored; rw [e1]; exact hst)
            exact ⟨k, by rw [hk, e1]⟩
          · obtain ⟨k, hk⟩ := i4 i (by omega) j hj hst
            refine ⟨k, ?_⟩
            rw [lift i (by omega) j hj ?_, hk]
            unfold Stored at hst ⊢
            rw [hk, List.length_append, List.length_take, List.length_drop, hlen i (by omega) j hj, hst]
            omega
        · intro i hi x hx hrc j hj
          by_cases e : i = m
          · subst e; exact a4 x hx hrc j hj
          · have e1 := i5 i (by omega) x hx hrc j hj
            rw [lift i (by omega) j hj ?_, e1]
            unfold Stored
            rw [e1, hlen i (by omega) j hj]
  exact main n s.nodes hser (Nat.le_refl _)

/-! ## An example: process 1 writes its row between the operations of process 0, which is killed inside its second write -/

/-- The processes take a step in the given order. -/
def schedule (F : Nat → Nat → Fault) : List Nat → Conf Xfer → Conf Xfer
  | [], s => s
  | r :: l, s => schedule F l (match s.thr r with
    | ⟨.file op k, t⟩ => s.put r ⟨Prog.after k (op.does (F r t) s.nodes).1, t + 1⟩ (op.does (F r t) s.nodes).2
    | _ => s)

theorem schedule_run (F : Nat → Nat → Fault) (n : Nat) : ∀ (l : List Nat), (∀ r ∈ l, r < n) → ∀ s0 s, KRun F n s0 s →
    KRun F n s0 (schedule F l s) := by
  intro l
  induction l with
  | nil => intro _ s0 s h; exact h
  | cons r l ih =>
    intro hl s0 s h
    refine ih (fun q hq => hl q (by simp [hq])) s0 _ ?_
    split
    · rename_i op k t ht
      exact .file h r op k t (hl r (by simp)) ht
    · exact h

/-- The second write of process 0 is cut off after 6 bytes. -/
def exKill : Nat → Nat → Fault := fun r t => if r = 0 ∧ t = 3 then .crash 6 else .none

def exKilled : Conf Xfer := schedule exKill [0, 1, 0, 0, 1, 0, 0, 0, 1] (startAll exEnv exWriters exFS)

example := C57_interrupted exEnv exBlock 4 1 2 exWriters exFS exKill exKilled exWriters_ok
  (schedule_run exKill 2 _ (by decide) _ _ (.nil _))

-- row 1 is complete, row 2 too, of row 3 only the first two bytes are new, and row 4 is that of process 1
example : (List.range 5).map (fun r => row exEnv.m ⟨exKilled.nodes, []⟩ exBlock r) =
      [[1, 1, 1, 1], [10, 0, 0, 0], [11, 0, 0, 0], [12, 0, 4, 4], [3, 2, 1, 0]] ∧
    (match (exKilled.thr 0).prog with | .hang => true | _ => false) = true ∧
    (match (exKilled.thr 1).prog with | .ret x => decide (x.rc = 0) | _ => false) = true := by decide +kernel

end Verif
