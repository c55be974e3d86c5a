import Verif.Spec.MpiBlock
import Verif.Proof.Coll
import Verif.Proof.Create
import Verif.Props.Mpiu
/-!
# Truncating the data files of a block by several processes
-/

set_option autoImplicit false

namespace Verif

open Spec

theorem emptied_nil (nd : Nodes) : emptied nd [] = nd := by
  funext k
  simp [emptied]

theorem emptied_append (nd : Nodes) (a b : List Key) : emptied (emptied nd a) b = emptied nd (a ++ b) := by
  funext k
  simp only [emptied, List.mem_append]
  by_cases h1 : k ∈ b <;> by_cases h2 : k ∈ a <;> simp [h1, h2]

theorem emptied_comm (nd : Nodes) (a b : List Key) : emptied (emptied nd a) b = emptied (emptied nd b) a := by
  rw [emptied_append, emptied_append]
  funext k
  simp only [emptied, List.mem_append]
  by_cases h1 : k ∈ b <;> by_cases h2 : k ∈ a <;> simp [h1, h2]

/-- Whether `fopen "w"` succeeds. -/
def openable (f : Fault) (nd : Nodes) (k : Key) : Bool :=
  match f with
  | .fail => false
  | _ => decide (nd k ≠ some .dir) && decide (nd k.dropLast = some .dir)

theorem exec_open_w {path : CStr} {f : Fault} (hf : ∀ n, f ≠ .crash n) (nd : Nodes) :
    (FOp.fopen path .w).exec f nd = some (.ok (openable f nd (resolve path)),
      if openable f nd (resolve path) then emptied nd [resolve path] else nd) := by
  have hset : ∀ k, (FS.set ⟨nd, []⟩ k (.file [])).node = emptied nd [k] := by
    intro k
    funext k'
    simp [FS.set, emptied]
  cases f with
  | crash n => exact absurd rfl (hf n)
  | fail => simp [FOp.exec, FOp.run, Verif.fopen, bind, M.bind, tick, pure, M.pure, openable]
  | _ =>
    by_cases hn : nd (resolve path) = some .dir <;> by_cases hp : nd (resolve path).dropLast = some .dir <;>
      rcases hq : nd (resolve path) with _ | (_ | d) <;>
      simp_all [FOp.exec, FOp.run, Verif.fopen, bind, M.bind, tick, pure, M.pure, getFS, setFS, openable]

theorem dropLast_fileKey (base : CStr) (id : FileId) : (fileKey base id).dropLast = resolve base := by
  rw [fileKey_eq]; simp

/-- Making one file of a block empty does not decide whether another can be opened. -/
theorem openable_other (f : Fault) (nd : Nodes) {base : CStr} {i : Nat} {is : List Nat} (h : i ∉ is) :
    openable f (emptied nd (is.map fun j => fileKey base (.data j))) (fileKey base (.data i)) =
      openable f nd (fileKey base (.data i)) := by
  have h1 : fileKey base (.data i) ∉ is.map fun j => fileKey base (.data j) := by
    intro hm
    obtain ⟨j, hj, e⟩ := List.mem_map.mp hm
    have := fileKey_inj e
    injection this with this
    exact h (this ▸ hj)
  have h2 : resolve base ∉ is.map fun j => fileKey base (.data j) := by
    intro hm
    obtain ⟨j, hj, e⟩ := List.mem_map.mp hm
    rw [fileKey_eq] at e
    have := congrArg List.length e
    simp at this
  unfold openable
  rw [dropLast_fileKey]
  simp only [emptied, if_neg h1, if_neg h2]

theorem commute_trunc {base : CStr} {i j : Nat} (h : i ≠ j) {f f' : Fault} (hf : ∀ n, f ≠ .crash n)
    (hf' : ∀ n, f' ≠ .crash n) :
    Commute (.fopen (filePath base (.data i)) .w) f (.fopen (filePath base (.data j)) .w) f' := by
  intro nd a nd1 b nd1' h1 h2
  have hk : ∀ i, resolve (filePath base (.data i)) = fileKey base (.data i) := fun _ => rfl
  have o1 : ∀ f, openable f (emptied nd [fileKey base (.data j)]) (fileKey base (.data i)) =
      openable f nd (fileKey base (.data i)) := fun f => openable_other f nd (is := [j]) (by simpa using h)
  have o2 : ∀ f, openable f (emptied nd [fileKey base (.data i)]) (fileKey base (.data j)) =
      openable f nd (fileKey base (.data j)) := fun f => openable_other f nd (is := [i]) (by simpa using Ne.symm h)
  rw [exec_open_w hf, hk] at h1
  rw [exec_open_w hf', hk] at h2
  injection h1 with h1
  injection h2 with h2
  injection h1 with e1 e2
  injection h2 with e3 e4
  subst e1 e2 e3 e4
  simp only [exec_open_w hf, exec_open_w hf', hk]
  cases c1 : openable f nd (fileKey base (.data i)) <;> cases c2 : openable f' nd (fileKey base (.data j)) <;>
    simp [c1, c2, o1, o2]
  exact emptied_comm _ _ _

section
variable {β : Type}

theorem fileOps_append (a b : List Event) : fileOps (a ++ b) = fileOps a ++ fileOps b := by
  unfold fileOps
  rw [List.filterMap_append]

/-- The operation that truncates data file `i`. -/
def truncOp (base : CStr) (i : Nat) : FOp := .fopen (filePath base (.data i)) .w

/-- One process truncates the files of a list. -/
theorem truncList_run {F : Nat → Nat → Fault} (hF : NoCrash F) {n r : Nat} (hr : r < n) (base : CStr)
    (K : Int → Prog β) : ∀ (l : List Nat) (s : Conf β), l.Nodup → (s.thr r).prog = (truncListP base l).bind K →
    ∃ es s' rt k j, Run F n s es s' ∧ (∀ q, q ≠ r → s'.thr q = s.thr q) ∧ (s'.thr r).prog = K rt ∧
      j ≤ k ∧ k ≤ l.length ∧ fileOps es = (l.take k).map (fun i => (r, truncOp base i)) ∧
      (∀ e ∈ es, ∃ t i, i ∈ l ∧ e = .file r (truncOp base i) (F r t)) ∧
      s'.nodes = emptied s.nodes ((l.take j).map fun i => fileKey base (.data i)) ∧
      ((rt = 0 ∧ j = l.length) ∨ (rt = -1 ∧ ¬ (F r = noFaults ∧
        ∀ i ∈ l, s.nodes (resolve base) = some .dir ∧ s.nodes (fileKey base (.data i)) ≠ some .dir))) := by
  intro l
  induction l with
  | nil =>
    intro s _ hs
    exact ⟨[], s, 0, 0, 0, .nil s, fun _ _ => rfl, hs, Nat.le_refl _, Nat.le_refl _, rfl, by simp,
      (emptied_nil _).symm, Or.inl ⟨rfl, rfl⟩⟩
  | cons i is ih =>
    intro s hnd hs
    obtain ⟨hi, hnd⟩ := List.nodup_cons.mp hnd
    have hs' : s.thr r = ⟨.file (truncOp base i) (fun a => (if a.isOk = true then truncListP base is else pure (-1)).bind K),
        (s.thr r).clock⟩ := by
      rw [show s.thr r = ⟨(s.thr r).prog, (s.thr r).clock⟩ from rfl, hs]
      rfl
    have hex := exec_open_w (path := filePath base (.data i)) (hF r (s.thr r).clock) s.nodes
    have hstep := Step.file s r (truncOp base i) _ _ _ _ hr hs' hex
    rw [show resolve (filePath base (.data i)) = fileKey base (.data i) from rfl] at hstep
    cases hc : openable (F r (s.thr r).clock) s.nodes (fileKey base (.data i)) with
    | false =>
      rw [hc] at hstep
      refine ⟨_, _, -1, 1, 0, .cons hstep (.nil _), ?_, ?_, by omega, by simp, rfl, ?_, ?_, Or.inr ⟨rfl, ?_⟩⟩
      · intro q hq; simp [Conf.put, hq]
      · simp [Conf.put, Resp.isOk]; rfl
      · intro e he
        rw [List.mem_singleton.mp he]
        exact ⟨_, i, by simp, rfl⟩
      · simp [Conf.put, emptied_nil]
      · rintro ⟨h1, h3⟩
        unfold openable at hc
        rw [h1, dropLast_fileKey] at hc
        obtain ⟨h2, this⟩ := h3 i (by simp)
        simp [noFaults, h2, this] at hc
    | true =>
      rw [hc] at hstep
      simp only [if_true] at hstep
      obtain ⟨es, s', rt, k, j, g1, g2, g3, g4, g5, g6, g7, g8, g9⟩ := ih (s.put r
        ⟨(if (Resp.ok true).isOk = true then truncListP base is else pure (-1)).bind K, (s.thr r).clock + 1⟩
        (emptied s.nodes [fileKey base (.data i)])) hnd (by simp [Conf.put, Resp.isOk])
      refine ⟨_, s', rt, k + 1, j + 1, .cons hstep g1, ?_, g3, by omega, by simp; omega, ?_, ?_, ?_, ?_⟩
      · intro q hq
        rw [g2 q hq]
        simp [Conf.put, hq]
      · rw [List.take_succ_cons, List.map_cons, ← g6]
        rfl
      · intro e he
        rcases List.mem_cons.mp he with rfl | he
        · exact ⟨_, i, by simp, rfl⟩
        · obtain ⟨t, i', h1, h2⟩ := g7 e he
          exact ⟨t, i', by simp [h1], h2⟩
      · rw [g8]
        simp only [Conf.put]
        rw [emptied_append, List.take_succ_cons, List.map_cons]
        rfl
      · rcases g9 with ⟨h1, h2⟩ | ⟨h1, h2⟩
        · exact Or.inl ⟨h1, by simp [h2]⟩
        · refine Or.inr ⟨h1, fun h => h2 ⟨h.1, fun i' hi' => ⟨?_, ?_⟩⟩⟩
          · simp only [Conf.put, emptied]
            split
            · rename_i hm
              exact absurd (List.mem_singleton.mp hm) (resolve_ne_fileKey base _)
            · exact (h.2 i' (by simp [hi'])).1
          · simp only [Conf.put, emptied]
            split
            · simp
            · exact (h.2 i' (by simp [hi'])).2

end

/-- The files of process `r`. -/
def shareOf (n first count r : Nat) : List Nat := (rankFiles count n r).map (first + ·)

theorem shareOf_nodup (n first count r : Nat) : (shareOf n first count r).Nodup := by
  unfold shareOf rankFiles
  rw [List.map_map]
  exact List.Pairwise.map _ (fun a b h => by simp only [Function.comp]; omega) List.nodup_range

theorem canTrunc_emptied {nd : Nodes} {base : CStr} {first count : Nat} (h : CanTrunc nd base first count) (is : List Nat) :
    CanTrunc (emptied nd (is.map fun i => fileKey base (.data i))) base first count := by
  intro i hi
  refine ⟨?_, ?_⟩
  · simp only [emptied]
    split
    · rename_i hm
      obtain ⟨j, _, e⟩ := List.mem_map.mp hm
      exact absurd e.symm (resolve_ne_fileKey base _)
    · exact (h i hi).1
  · simp only [emptied]
    split
    · simp
    · exact (h i hi).2

/-- The processes truncate their files, one after the other. -/
theorem truncSome_run {F : Nat → Nat → Fault} (hF : NoCrash F) {n : Nat} (base : CStr) (first count : Nat)
    (err : Nat → Option CStr) (fail : Nat → CStr) (nd : Nodes)
    (hb : ∀ r, r < n → ∀ i ∈ shareOf n first count r, first ≤ i ∧ i < first + count) : ∀ m, m ≤ n →
    ∃ (es : List Event) (s : Conf (Int × Option CStr)) (rt : Nat → Int) (k j : Nat → Nat),
      Run F n (startTrunc n base first count err fail nd) es s ∧
      (∀ r, m ≤ r → s.thr r = (startTrunc n base first count err fail nd).thr r) ∧
      (∀ r, r < m → (s.thr r).prog = anyerrorP .world (List.range n) r (rt r) (if rt r ≠ 0 then some (fail r) else err r)) ∧
      fileOps es = (List.range m).flatMap (fun r => ((shareOf n first count r).take (k r)).map fun i => (r, truncOp base i)) ∧
      (∀ e ∈ es, ∃ r t i, r < n ∧ i ∈ shareOf n first count r ∧ e = .file r (truncOp base i) (F r t)) ∧
      s.nodes = emptied nd (((List.range m).flatMap fun r => (shareOf n first count r).take (j r)).map
        fun i => fileKey base (.data i)) ∧
      ∀ r, r < m → (rt r = 0 ∧ j r = (shareOf n first count r).length ∧ k r = (shareOf n first count r).length) ∨
        (rt r = -1 ∧ ¬ (F r = noFaults ∧ CanTrunc nd base first count)) := by
  intro m
  induction m with
  | zero =>
    intro _
    exact ⟨[], _, fun _ => 0, fun _ => 0, fun _ => 0, .nil _, fun _ _ => rfl, fun r h => absurd h (by omega), rfl, by simp,
      (emptied_nil _).symm, fun r h => absurd h (by omega)⟩
  | succ m ih =>
    intro hm
    obtain ⟨es, s, rt, k, j, g1, g2, g3, g4, g5, g6, g7⟩ := ih (by omega)
    obtain ⟨es', s', rt', k', j', h1, h2, h3, h4, h5, h6, h7, h8, h9⟩ := truncList_run hF (show m < n from hm) base
      (fun rt => anyerrorP .world (List.range n) m rt (if rt ≠ 0 then some (fail m) else err m))
      (shareOf n first count m) s (shareOf_nodup _ _ _ _) (by rw [g2 m (Nat.le_refl _)]; rfl)
    have ht : ∀ (f : Nat → Nat) (x : Nat) r, r < m → (if r = m then x else f r) = f r := by
      intro f x r hr
      rw [if_neg (by omega)]
    refine ⟨es ++ es', s', fun r => if r = m then rt' else rt r, fun r => if r = m then k' else k r,
      fun r => if r = m then j' else j r, g1.trans h1, ?_, ?_, ?_, ?_, ?_, ?_⟩
    · intro r hr
      rw [h2 r (by omega), g2 r (by omega)]
    · intro r hr
      by_cases e : r = m
      · subst e
        simp only [if_true]
        exact h3
      · simp only [if_neg e]
        rw [h2 r e]
        exact g3 r (by omega)
    · rw [fileOps_append, g4, h6, List.range_succ, List.flatMap_append]
      congr 1
      · rw [List.flatMap_def, List.flatMap_def]
        refine congrArg List.flatten (List.map_congr_left ?_)
        intro r hr
        simp only [ht k k' r (List.mem_range.mp hr)]
      · simp
    · intro e he
      rcases List.mem_append.mp he with he | he
      · exact g5 e he
      · obtain ⟨t, i, h1, h2⟩ := h7 e he
        exact ⟨m, t, i, hm, h1, h2⟩
    · rw [h8, g6, emptied_append, ← List.map_append, List.range_succ, List.flatMap_append]
      congr 2
      congr 1
      · rw [List.flatMap_def, List.flatMap_def]
        refine congrArg List.flatten (List.map_congr_left ?_)
        intro r hr
        simp only [ht j j' r (List.mem_range.mp hr)]
      · simp
    · intro r hr
      by_cases e : r = m
      · subst e
        simp only [if_true]
        rcases h9 with ⟨a, b⟩ | ⟨a, b⟩
        · exact Or.inl ⟨a, b, by omega⟩
        · refine Or.inr ⟨a, fun hc => b ⟨hc.1, ?_⟩⟩
          rw [g6]
          have := canTrunc_emptied hc.2 ((List.range r).flatMap fun r => (shareOf n first count r).take (j r))
          intro i hi
          obtain ⟨b1, b2⟩ := hb r hm i hi
          have := this (i - first) (by omega)
          rwa [show first + (i - first) = i by omega] at this
      · simp only [if_neg e]
        exact g7 r (by omega)

/-- Outside the data files nothing changes while they are truncated. -/
theorem trunc_frame {α : Type} {F : Nat → Nat → Fault} (hF : NoCrash F) {n : Nat} {s s' : Conf α} {es : List Event}
    (h : Run F n s es s') {base : CStr} {P : Nat → Prop}
    (he : ∀ e ∈ es, ∀ r op f, e = .file r op f → ∃ i, P i ∧ op = truncOp base i) (k : Key)
    (hk : ∀ i, P i → k ≠ fileKey base (.data i)) : s'.nodes k = s.nodes k := by
  induction h with
  | nil s => rfl
  | cons hs _ ih =>
    rw [ih (fun e h => he e (by simp [h]))]
    cases hs with
    | coll _ _ _ => rfl
    | file r op k' t a nd hr ht hex =>
      obtain ⟨i, hi, rfl⟩ := he _ (List.mem_cons_self ..) r op _ rfl
      unfold truncOp at hex
      rw [exec_open_w (hF r t)] at hex
      injection hex with hex
      injection hex with _ hex
      subst hex
      simp only [Conf.put]
      split
      · simp only [emptied, List.mem_singleton]
        rw [if_neg (show k ≠ resolve (filePath base (.data i)) from hk i hi)]
      · rfl

/-- If the data files could be truncated, they were not directories, and the block directory exists. -/
theorem truncFiles_can (base : CStr) : ∀ (n i : Nat) (w : World),
    wpc (truncFiles base i n) w
      (fun b _ => b = true → ∀ f, i ≤ f → f < i + n → w.fs.node (resolve base) = some .dir ∧
        w.fs.node (fileKey base (.data f)) ≠ some .dir) (fun _ => True) := by
  intro n
  induction n with
  | zero => intro i w _ f h1 h2; omega
  | succ n ih =>
    intro i w
    have hkey : resolve (filePath base (.data i)) = fileKey base (.data i) := rfl
    unfold truncFiles
    rw [wpc_bind]
    unfold openAFile
    apply wpc_fopen_w
    · intro b w1 _ _ h1 _
      cases b with
      | false =>
        simp only [Bool.false_eq_true, if_false]
        rw [wpc_pure]
        intro h; cases h
      | true =>
        simp only [if_true]
        obtain ⟨e1, e2, e3⟩ := h1 rfl
        rw [hkey] at e1 e2 e3
        rw [dropLast_fileKey] at e3
        apply wpc_mono (ih (i + 1) w1)
        · intro b _ h hb f h1 h2
          by_cases e : f = i
          · subst e; exact ⟨e3, e2⟩
          · have := (h hb f (by omega) (by omega)).2
            rw [e1, FS.set_other _ _ _ _ (fileKey_ne (by simp; omega))] at this
            exact ⟨e3, this⟩
        · intro _ _; trivial
    · intro _ _ _; trivial

end Verif
