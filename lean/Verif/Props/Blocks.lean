import Verif.Proof.Blocks
import Verif.Props.Tree
import Verif.Props.Holes
/-!
# A file of several blocks (C101)

A program makes blocks in a file and uses them in any order. Every block is a table of its own: what is done to one is
never seen in another.
-/

set_option autoImplicit false

namespace Verif

open Spec

/-- No blocks yet. -/
theorem blocks_none {env : Env} {bf : CStr} {fs : FS} (ht : TreeOk fs) (hd : fs.node (resolve bf) = some .dir) (hs : OpenBlocks) :
    BlocksHold env bf fs hs fs Blocks.none :=
  ⟨ht, hd, nofun, nofun, nofun, fun _ h => absurd rfl h⟩

/-- An operation on another block does not change this one. -/
theorem next_other (env : Env) (S : Blocks) (op : FileOp) (name : CStr) (h : ¬ op.about name) : S.next env op name = S name := by
  cases op with
  | create n dt nm sizes => exact if_neg fun e => h e.symm
  | use n op => exact if_neg fun e => h e.symm

/-- Nor its handle. -/
theorem runFileOp_other {env : Env} {bf : CStr} {hs hs' : OpenBlocks} {op : FileOp} {w w' : World} {x : BAns} {name : CStr}
    (h : ¬ op.about name) (e : runFileOp env bf hs op w = .ok (x, hs') w') : hs' name = hs name := by
  cases op with
  | create n dt nm sizes =>
    unfold runFileOp at e
    simp only [bind, M.bind] at e
    split at e
    · rename_i a w1 e1
      obtain ⟨rc, b⟩ := a
      simp only [pure, M.pure] at e
      injection e with e e'
      injection e with e1 e2
      rw [← e2]
      exact if_neg fun e => h e.symm
    all_goals cases e
  | use n op =>
    unfold runFileOp at e
    cases hn : hs n with
    | none => simp only [hn] at e; cases e
    | some b =>
      simp only [hn, bind, M.bind] at e
      split at e
      · rename_i a w1 e1
        obtain ⟨x, b⟩ := a
        simp only [pure, M.pure] at e
        injection e with e e'
        injection e with e1 e2
        rw [← e2]
        exact if_neg fun e => h e.symm
      all_goals cases e

/-- Any history. -/
theorem blocks_history (env : Env) (bf : CStr) (fs0 : FS) (hfmt : FmtOk env) (hchunk : env.chunkBytes < 18446744073709551616)
    (hbf : bf ≠ []) (ops : List FileOp) : ∀ (hs : OpenBlocks) (S : Blocks) (w : World), w.faults = noFaults →
    BlocksHold env bf fs0 hs w.fs S → S.allLegal env bf fs0 ops →
    ∃ xs hs' w', runFileOps env bf hs ops w = .ok (xs, hs') w' ∧ w'.faults = noFaults ∧ S.allAnswered env ops xs ∧
      BlocksHold env bf fs0 hs' w'.fs (S.after env ops) ∧
      (∀ name, (∀ op ∈ ops, ¬ op.about name) → hs' name = hs name ∧ S.after env ops name = S name) := by
  induction ops with
  | nil =>
    intro hs S w hnf h _
    exact ⟨[], hs, w, rfl, hnf, trivial, h, fun _ _ => ⟨rfl, rfl⟩⟩
  | cons op ops ih =>
    intro hs S w hnf h hl
    obtain ⟨x, hs1, w1, e1, h1, h2, h3⟩ := h.step hfmt hchunk hnf hbf op hl.1
    obtain ⟨xs, hs2, w2, e2, g1, g2, g3, g4⟩ := ih hs1 _ w1 h1 h3 hl.2
    refine ⟨x :: xs, hs2, w2, ?_, g1, ⟨h2, g2⟩, g3, ?_⟩
    · unfold runFileOps
      simp only [bind, M.bind]
      rw [e1]
      simp only
      rw [e2]
      rfl
    · intro name hn
      obtain ⟨k1, k2⟩ := g4 name fun o ho => hn o (List.mem_cons_of_mem _ ho)
      have hno := hn op List.mem_cons_self
      exact ⟨k1.trans (runFileOp_other hno e1), k2.trans (next_other env S op name hno)⟩

/-- **C101, independent blocks.** A program starts with a file (a directory that exists, with whatever is in it), makes
blocks in it and uses them — reads, writes, grows, sets attributes, flushes, closes and opens again — in any order. As long
as no block is put in the directory of another one or inside one of its files, every operation succeeds and is answered
according to what was done to that block and to no other. -/
theorem C101_blocks (env : Env) (bf : CStr) (ops : List FileOp) (hs : OpenBlocks) (w : World) (hfmt : FmtOk env)
    (hchunk : env.chunkBytes < 18446744073709551616) (hnf : w.faults = noFaults) (ht : TreeOk w.fs) (hbf : bf ≠ [])
    (hd : w.fs.node (resolve bf) = some .dir) (hl : Blocks.none.allLegal env bf w.fs ops) :
    ∃ xs hs' w', runFileOps env bf hs ops w = .ok (xs, hs') w' ∧ Blocks.none.allAnswered env ops xs := by
  obtain ⟨xs, hs', w', e, _, h, _⟩ := blocks_history env bf w.fs hfmt hchunk hbf ops hs _ w hnf (blocks_none ht hd hs) hl
  exact ⟨xs, hs', w', e, h⟩

/-- A history in two parts. -/
theorem runFileOps_append {env : Env} {bf : CStr} (a b : List FileOp) : ∀ {hs hs1 hs2 : OpenBlocks} {w w1 w2 : World} {xs ys : List BAns},
    runFileOps env bf hs a w = .ok (xs, hs1) w1 → runFileOps env bf hs1 b w1 = .ok (ys, hs2) w2 →
    runFileOps env bf hs (a ++ b) w = .ok (xs ++ ys, hs2) w2 := by
  induction a with
  | nil =>
    intro hs hs1 hs2 w w1 w2 xs ys h1 h2
    unfold runFileOps at h1
    simp only [pure, M.pure] at h1
    injection h1 with h1 h3
    injection h1 with h1 h4
    subst h1 h3 h4
    exact h2
  | cons op a ih =>
    intro hs hs1 hs2 w w1 w2 xs ys h1 h2
    unfold runFileOps at h1
    simp only [bind, M.bind] at h1
    split at h1
    · rename_i p w3 e3
      obtain ⟨x, hs3⟩ := p
      simp only at h1
      split at h1
      · rename_i p w4 e4
        obtain ⟨zs, hs4⟩ := p
        simp only [pure, M.pure] at h1
        injection h1 with h1 h3
        injection h1 with h1 h4
        subst h1 h3 h4
        have := ih e4 h2
        show runFileOps env bf hs (op :: (a ++ b)) w = _
        unfold runFileOps
        simp only [bind, M.bind]
        rw [e3]
        simp only
        rw [this]
        rfl
      all_goals cases h1
    all_goals cases h1

theorem blocks_after_append (env : Env) (a b : List FileOp) : ∀ S : Blocks, S.after env (a ++ b) = (S.after env a).after env b := by
  induction a with
  | nil => intro S; rfl
  | cons op a ih => intro S; exact ih _

theorem allLegal_append (env : Env) (bf : CStr) (fs0 : FS) (a b : List FileOp) : ∀ S : Blocks,
    S.allLegal env bf fs0 (a ++ b) ↔ S.allLegal env bf fs0 a ∧ (S.after env a).allLegal env bf fs0 b := by
  induction a with
  | nil => intro S; exact ⟨fun h => ⟨trivial, h⟩, fun h => h.2⟩
  | cons op a ih =>
    intro S
    exact (and_congr_right' (ih _)).trans and_assoc.symm

/-- A block that was saved has the documented files. -/
theorem HoldsF.documented {env : Env} {K : Kind} {dt : CStr} {bb : Block} {fs : FS} {H : Holey} (h : HoldsF env K dt bb fs H)
    (hd : bb.dirty = false) (hp : H.content.pending = false) : Documented K dt fs bb.basename H := by
  refine ⟨?_, ?_, h.attrs hp⟩
  · obtain ⟨g1, g2⟩ := h.headerFile hd
    exact ⟨bb.fchecksum, g2, g1⟩
  · intro f hf
    obtain ⟨bytes, g1, g2⟩ := h.file f hf
    have hlt : f < 16777216 := by
      have g3 := h.holey.holds.savable.header.nfileMax
      rw [← h.holey.holds.ok.layout.nfile, h.holey.sizes] at g3
      omega
    exact ⟨bytes, by rw [sixHex_eq f hlt]; exact g1, g2⟩

/-- **C101, what the files of every block say.** In such a history, a block that was flushed or closed and not used after that
has, at the end, the documented files (C100) with what it held then — whatever was done to other blocks in between and
later. -/
theorem C101_documented (env : Env) (bf : CStr) (ops later : List FileOp) (name : CStr) (last : BOp)
    (hlast : last = .flush ∨ last = .reopen) (hs : OpenBlocks) (w : World) (hfmt : FmtOk env)
    (hchunk : env.chunkBytes < 18446744073709551616) (hnf : w.faults = noFaults) (ht : TreeOk w.fs) (hbf : bf ≠ [])
    (hd : w.fs.node (resolve bf) = some .dir) (hl : Blocks.none.allLegal env bf w.fs (ops ++ .use name last :: later))
    (hlater : ∀ op ∈ later, ¬ op.about name) :
    ∃ xs hs' w' s, runFileOps env bf hs (ops ++ .use name last :: later) w = .ok (xs, hs') w' ∧
      Blocks.none.after env (ops ++ .use name last :: later) name = some s ∧ Documented s.K s.dt w'.fs (pathJoin bf name) s.H := by
  obtain ⟨l1, l2, l3⟩ := (allLegal_append env bf w.fs ops _ _).mp hl
  obtain ⟨xs, hs1, w1, e1, h1, _, h2, _⟩ := blocks_history env bf w.fs hfmt hchunk hbf ops hs _ w hnf (blocks_none ht hd hs) l1
  obtain ⟨x, hs2, w2, e2, h3, _, h4⟩ := h2.step hfmt hchunk h1 hbf _ l2
  obtain ⟨ys, hs3, w3, e3, _, _, h5, h6⟩ := blocks_history env bf w.fs hfmt hchunk hbf later hs2 _ w2 h3 h4 l3
  obtain ⟨s, hS, hleg⟩ := l2
  obtain ⟨b, k1, k2, k3, _⟩ := h2.slots name s hS
  obtain ⟨x', bb', w', e, g1, g2, _, g4, g5⟩ := k3.step h1 last hleg
  have hb : hs2 name = some bb' := by
    unfold runFileOp at e2
    simp only [k1, bind, M.bind] at e2
    rw [e] at e2
    simp only [pure, M.pure] at e2
    injection e2 with e2 _
    injection e2 with _ e2
    rw [← e2]
    exact if_pos rfl
  obtain ⟨m1, m2⟩ := h6 name hlater
  have hs' : ((Blocks.none.after env ops).next env (.use name last)) name = some { s with H := s.H.next env s.K last } := by
    show (if name = name then _ else _) = _
    rw [if_pos rfl, hS]
    rfl
  rw [hs'] at m2
  obtain ⟨b3, n1, n2, n3, _⟩ := h5.slots name _ m2
  rw [m1, hb] at n1
  injection n1 with n1
  subst n1
  have hdoc := n3.documented (g5 (by rcases hlast with rfl | rfl <;> rfl)) (after_saved env s.K [] hlast s.H)
  rw [n2] at hdoc
  refine ⟨xs ++ x :: ys, hs3, w3, _, runFileOps_append _ _ e1 ?_, ?_, hdoc⟩
  · unfold runFileOps
    simp only [bind, M.bind]
    rw [e2]
    simp only
    rw [e3]
    rfl
  · rw [blocks_after_append]
    exact m2

/-! ## A new file with plain names -/

theorem plain_names {n : CStr} (h : PlainBlockName n) : names n ≠ [] ∧ (∀ c ∈ names n, IsName c ∧ c.head? ≠ some 46 ∧ ∀ id : FileId, c ≠ id.name) ∧
    n = joinNames (names n) := by
  obtain ⟨cs, h1, h2, rfl⟩ := h
  rw [names_joinNames cs fun c hc => (h2 c hc).1]
  exact ⟨h1, h2, rfl⟩

/-- Blocks with different plain names do not get in each other's way. -/
theorem plain_apart {bf n n' : CStr} (hbf : bf ≠ []) (h : PlainBlockName n) (h' : PlainBlockName n') (hne : n ≠ n') :
    Apart (pathJoin bf n) (pathJoin bf n') := by
  obtain ⟨_, p2, p3⟩ := plain_names h
  obtain ⟨_, q2, q3⟩ := plain_names h'
  refine ⟨?_, ?_, ?_⟩
  · intro he
    rw [resolve_join _ _ hbf, resolve_join _ _ hbf] at he
    exact hne (p3.trans (by rw [List.append_cancel_left he]; exact q3.symm))
  · intro id he
    rw [fileKey_eq, resolve_join _ _ hbf, resolve_join _ _ hbf, List.append_assoc] at he
    have he := List.append_cancel_left he
    exact (p2 id.name (by rw [he]; simp)).2.2 id rfl
  · intro id he
    rw [fileKey_eq, resolve_join _ _ hbf, resolve_join _ _ hbf, List.append_assoc] at he
    have he := (List.prefix_append_right_inj _).mp he
    exact (q2 id.name (he.subset (by simp))).2.2 id rfl

/-- There is room in an empty directory. -/
theorem empty_room {fs : FS} {bf n : CStr} (hbf : bf ≠ []) (ht : TreeOk fs) (he : EmptyDir fs bf) (h : PlainBlockName n) : Room fs (pathJoin bf n) := by
  obtain ⟨p1, _, _⟩ := plain_names h
  have below : ∀ id, fs.node (fileKey (pathJoin bf n) id) = none := by
    intro id
    apply he.empty
    · rw [fileKey_eq, resolve_join _ _ hbf, List.append_assoc]; exact List.prefix_append _ _
    · intro hk
      rw [fileKey_eq, resolve_join _ _ hbf] at hk
      have := congrArg List.length hk
      simp at this
  refine ⟨?_, fun id => by rw [below]; simp, below _⟩
  intro k hk hf
  obtain ⟨d, hd⟩ := hf
  rw [resolve_join _ _ hbf] at hk
  rcases List.prefix_or_prefix_of_prefix hk (List.prefix_append (resolve bf) (names n)) with h1 | h1
  · obtain ⟨t, h1⟩ := h1
    by_cases ht0 : t = []
    · subst ht0
      rw [List.append_nil] at h1
      rw [h1, he.dir] at hd
      cases hd
    · have := ht.prefix_dir k t (by rw [h1, he.dir]; rfl) ht0
      rw [this] at hd
      cases hd
  · by_cases hk : k = resolve bf
    · rw [hk, he.dir] at hd; cases hd
    · rw [he.empty k h1 hk] at hd; cases hd

/-- Plain names are enough. -/
theorem plainLegal_legal {env : Env} {bf : CStr} {fs0 : FS} (hbf : bf ≠ []) (ht : TreeOk fs0) (he : EmptyDir fs0 bf) (ops : List FileOp) :
    ∀ S : Blocks, (∀ n, (S n).isSome = true → PlainBlockName n) → S.allPlainLegal env bf ops →
    S.allLegal env bf fs0 ops ∧ ∀ n, (S.after env ops n).isSome = true → PlainBlockName n := by
  induction ops with
  | nil => intro S hS _; exact ⟨trivial, hS⟩
  | cons op ops ih =>
    intro S hS hl
    have hnext : ∀ n, (S.next env op n).isSome = true → PlainBlockName n := by
      intro n hn
      cases op with
      | create name dt nm sizes =>
        simp only [Blocks.next] at hn
        by_cases h : n = name
        · subst h; exact hl.1.2
        · rw [if_neg h] at hn; exact hS n hn
      | use name op =>
        obtain ⟨s, h1, _⟩ := hl.1
        simp only [Blocks.next] at hn
        by_cases h : n = name
        · subst h; exact hS n (by rw [h1]; rfl)
        · rw [if_neg h] at hn; exact hS n hn
    obtain ⟨h1, h2⟩ := ih _ hnext hl.2
    refine ⟨⟨?_, h1⟩, h2⟩
    cases op with
    | create name dt nm sizes =>
      exact ⟨hl.1.1, empty_room hbf ht he hl.1.2, fun n hne hn => ⟨plain_apart hbf (hS n hn) hl.1.2 hne,
        plain_apart hbf hl.1.2 (hS n hn) fun h => hne h.symm⟩⟩
    | use name op => exact hl.1

/-- Which directories below the file have a header. -/
theorem BlocksHold.hasHeader {env : Env} {bf : CStr} {fs0 fs : FS} {hs : OpenBlocks} {S : Blocks} (h : BlocksHold env bf fs0 hs fs S)
    (hbf : bf ≠ []) (he : EmptyDir fs0 bf) (hp : ∀ n, (S n).isSome = true → PlainBlockName n) (cs : List CStr) (hc : cs ≠ []) :
    HasHeader fs (resolve bf ++ cs) ↔ ∃ n, (S n).isSome = true ∧ names n = cs := by
  constructor
  · intro hh
    have h0 : fs0.node (resolve bf ++ cs ++ [b!"header"]) = none := by
      apply he.empty
      · rw [List.append_assoc]; exact List.prefix_append _ _
      · intro hk
        have := congrArg List.length hk
        simp at this
    unfold HasHeader at hh
    obtain ⟨n, hn, h1⟩ := h.changed _ (fun e => by rw [e, h0] at hh; cases hh)
    refine ⟨n, hn, ?_⟩
    rcases h1 with ⟨id, h1⟩ | ⟨h1, _⟩
    · rw [fileKey_eq, resolve_join _ _ hbf, List.append_assoc, List.append_assoc] at h1
      have h1 := List.append_cancel_left h1
      exact ((List.append_inj' h1 rfl).1).symm
    · exfalso
      rw [resolve_join _ _ hbf, List.append_assoc] at h1
      have h1 := (List.prefix_append_right_inj _).mp h1
      exact ((plain_names (hp n hn)).2.1 b!"header" (h1.subset (by simp))).2.2 .header rfl
  · rintro ⟨n, hn, rfl⟩
    obtain ⟨s, hs⟩ := Option.isSome_iff_exists.mp hn
    obtain ⟨b, _, _, _, d, hd⟩ := h.slots n s hs
    rw [fileKey_eq, resolve_join _ _ hbf] at hd
    unfold HasHeader
    show (fs.node (resolve bf ++ names n ++ [FileId.header.name])).isSome = true
    rw [hd]
    rfl

theorem joinNames_append (a b : List CStr) (ha : a ≠ []) (hb : b ≠ []) : joinNames (a ++ b) = joinNames a ++ 47 :: joinNames b := by
  induction a with
  | nil => exact absurd rfl ha
  | cons c a ih =>
    cases a with
    | nil =>
      cases b with
      | nil => exact absurd rfl hb
      | cons d b => rfl
    | cons d a =>
      have := ih (by simp)
      simp only [List.cons_append, joinNames] at this ⊢
      rw [this]
      simp

/-- Inside, in terms of components. -/
theorem inside_names {o n : CStr} (ho : PlainBlockName o) (hn : PlainBlockName n) :
    InsideBlock o n ↔ ∃ j, 0 < j ∧ j < (names n).length ∧ names o = (names n).take j := by
  obtain ⟨o1, o2, o3⟩ := plain_names ho
  obtain ⟨n1, n2, n3⟩ := plain_names hn
  constructor
  · rintro ⟨t, ht⟩
    rw [List.append_assoc] at ht
    have h1 : names n = names o ++ names t := by rw [← ht]; exact names_append o t
    have h2 : names t ≠ [] := by
      intro h2
      have h3 : n = o := by rw [n3, h1, h2, List.append_nil]; exact o3.symm
      rw [h3] at ht
      have := congrArg List.length ht
      simp at this
    refine ⟨(names o).length, List.length_pos_iff.mpr o1, ?_, by rw [h1]; simp⟩
    rw [h1, List.length_append]
    have := List.length_pos_iff.mpr h2
    omega
  · rintro ⟨j, hj, hl, h⟩
    refine ⟨joinNames ((names n).drop j), ?_⟩
    have h1 : names n = names o ++ (names n).drop j := by rw [h, List.take_append_drop]
    have h2 : (names n).drop j ≠ [] := by
      intro h2
      have := congrArg List.length h2
      simp at this
      omega
    conv => rhs; rw [n3, h1, joinNames_append _ _ o1 h2, ← o3]
    simp

/-- **C101, a new file.** A program starts with an empty directory, makes blocks with plain names in it and uses them in any
order. Then every operation succeeds and is answered according to what was done to that block; and listing the file gives
exactly the names of the blocks that were made, except those inside another block, each once. -/
theorem C101_new_file (env : Env) (sort : List CStr → List CStr) (hsort : ∀ l, (sort l).Perm l) (bf : CStr) (ops : List FileOp)
    (hs : OpenBlocks) (w : World) (hfmt : FmtOk env) (hchunk : env.chunkBytes < 18446744073709551616)
    (hnf : w.faults = noFaults) (ht : TreeOk w.fs) (hbf : bf ≠ []) (he : EmptyDir w.fs bf)
    (hl : Blocks.none.allPlainLegal env bf ops) :
    ∃ xs hs' w' l w'', runFileOps env bf hs ops w = .ok (xs, hs') w' ∧ Blocks.none.allAnswered env ops xs ∧
      bigFileList sort bf w' = .ok l w'' ∧ w''.fs = w'.fs ∧ l.Nodup ∧
      ∀ name, name ∈ l ↔ (Blocks.none.after env ops name).isSome = true ∧
        ∀ o, (Blocks.none.after env ops o).isSome = true → ¬ InsideBlock o name := by
  obtain ⟨hleg, hp⟩ := plainLegal_legal hbf ht he ops Blocks.none nofun hl
  obtain ⟨xs, hs', w', e, h1, h2, h3, _⟩ := blocks_history env bf w.fs hfmt hchunk hbf ops hs _ w hnf (blocks_none ht he.dir hs) hleg
  have hh := h3.hasHeader hbf he hp
  have hlisted : ∀ cs, Listed w'.fs (resolve bf) cs ↔ ∃ n, (Blocks.none.after env ops n).isSome = true ∧ names n = cs ∧
      ∀ o, (Blocks.none.after env ops o).isSome = true → ¬ InsideBlock o n := by
    intro cs
    constructor
    · intro hL
      obtain ⟨n, g1, g2⟩ := (hh cs hL.ne).mp hL.header
      refine ⟨n, g1, g2, ?_⟩
      intro o ho hi
      obtain ⟨j, j1, j2, j3⟩ := (inside_names (hp o ho) (hp n g1)).mp hi
      rw [g2] at j2 j3
      refine hL.outer j j1 j2 ((hh _ ?_).mpr ⟨o, ho, j3⟩)
      rw [← j3]
      exact (plain_names (hp o ho)).1
    · rintro ⟨n, g1, rfl, g3⟩
      obtain ⟨p1, p2, p3⟩ := plain_names (hp n g1)
      refine ⟨p1, fun c hc => (p2 c hc).1, fun c hc => (p2 c hc).2.1, (hh _ p1).mpr ⟨n, g1, rfl⟩, ?_⟩
      intro j j1 j2 hj
      obtain ⟨o, ho, j3⟩ := (hh _ (by
        intro h0
        have := congrArg List.length h0
        rw [List.length_take, List.length_nil] at this
        omega)).mp hj
      exact g3 o ho ((inside_names (hp o ho) (hp n g1)).mpr ⟨j, j1, j2, j3⟩)
  obtain ⟨l, w'', e2, k1, k2, k3⟩ := C36_list sort hsort bf w' h1 h3.tree hbf (by
    intro cs hL
    obtain ⟨n, g1, rfl, _⟩ := (hlisted cs).mp hL
    rw [← (plain_names (hp n g1)).2.2]
    refine Nat.le_trans ?_ (h3.length n g1)
    unfold pathJoin
    repeat' split
    all_goals simp
    all_goals omega)
  refine ⟨xs, hs', w', l, w'', e, h2, e2, k1, k2, ?_⟩
  intro name
  rw [k3]
  constructor
  · rintro ⟨cs, hL, rfl⟩
    obtain ⟨n, g1, rfl, g3⟩ := (hlisted cs).mp hL
    rw [← (plain_names (hp n g1)).2.2]
    exact ⟨g1, g3⟩
  · rintro ⟨g1, g2⟩
    exact ⟨names name, (hlisted _).mpr ⟨name, g1, rfl, g2⟩, (plain_names (hp name g1)).2.2⟩

/-! ### The example -/

/-- Two blocks in the empty directory `d/e`, used in turn. -/
def exBlkOps : List FileOp :=
  [.create b!"a" b!"i4" 1 [2, 0, 3], .create b!"b/c" b!"i4" 1 [2, 0, 3], .use b!"b/c" (.write 1 exSrc exMem 8), .use b!"a" (.grow [4]),
    .use b!"b/c" .flush, .use b!"a" .reopen]

theorem exBlkMakeable (name : CStr) (h : name = b!"a" ∨ name = b!"b/c") : Makeable exEnv b!"d/e" name b!"i4" 1 [2, 0, 3] := by
  rcases h with rfl | rfl <;>
  exact ⟨by decide, by decide, by decide, exB_good.dt, by decide, by decide, by decide, by decide, by decide, by decide, by decide⟩

theorem exPlainBlock (cs : List CStr) (h : cs = [b!"a"] ∨ cs = [b!"b", b!"c"]) : PlainBlockName (joinNames cs) := by
  refine ⟨cs, by rcases h with rfl | rfl <;> simp, ?_, rfl⟩
  have hc : ∀ c ∈ cs, c ≠ [] ∧ c ≠ b!"." ∧ (47 : Byte) ∉ c ∧ c.head? ≠ some 46 ∧ c.length = 1 := by
    rcases h with rfl | rfl <;> decide
  intro c h
  obtain ⟨h1, h2, h3, h4, h5⟩ := hc c h
  refine ⟨⟨h1, h2, h3⟩, h4, ?_⟩
  intro id he
  have : 1 < id.name.length := by
    cases id with
    | header => decide
    | attr => decide
    | attrV2 => decide
    | data f =>
      show 1 < (hex6Str f).length
      unfold hex6Str
      simp only [List.length_append, List.length_replicate]
      omega
  rw [← he, h5] at this
  omega

theorem exBlkOps_legal : Blocks.none.allPlainLegal exEnv b!"d/e" exBlkOps :=
  ⟨⟨exBlkMakeable _ (Or.inl rfl), exPlainBlock [b!"a"] (Or.inl rfl)⟩, ⟨exBlkMakeable _ (Or.inr rfl), exPlainBlock [b!"b", b!"c"] (Or.inr rfl)⟩,
    ⟨_, rfl, by decide, exSrc_array, fun h => absurd h (by decide), fun _ => by decide +kernel⟩,
    ⟨_, rfl, by decide, by decide, by decide⟩, ⟨_, rfl, trivial⟩, ⟨_, rfl, trivial⟩, trivial⟩

theorem exBlkTree_empty : EmptyDir exTree b!"d/e" := by
  refine ⟨by decide, ?_⟩
  intro k h1 h2
  cases hk : exTree.node k with
  | none => rfl
  | some n =>
    have hm := exTree_mem (k := k) (by rw [hk]; rfl)
    have : ∀ k ∈ exTree.dom, resolve b!"d/e" <+: k → k = resolve b!"d/e" := by decide
    exact absurd (this k hm h1) h2

example : ∃ xs hs' w' l w'', runFileOps exEnv b!"d/e" (fun _ => none) exBlkOps exTreeWorld = .ok (xs, hs') w' ∧
    Blocks.none.allAnswered exEnv exBlkOps xs ∧ bigFileList id b!"d/e" w' = .ok l w'' ∧ w''.fs = w'.fs ∧ l.Nodup ∧
      ∀ name, name ∈ l ↔ (Blocks.none.after exEnv exBlkOps name).isSome = true ∧
        ∀ o, (Blocks.none.after exEnv exBlkOps o).isSome = true → ¬ InsideBlock o name :=
  C101_new_file exEnv id (fun l => List.Perm.refl l) b!"d/e" exBlkOps _ exTreeWorld exFmt (by decide) rfl exTree_ok (by decide) exBlkTree_empty
    exBlkOps_legal

/-- Make two blocks, the second with this name, use them and list the file. -/
def exBList (name : CStr) : Option (List Int × List CStr) :=
  match runFileOps exEnv b!"d/e" (fun _ => none)
      [.create b!"a" b!"i4" 1 [2, 0, 3], .create name b!"i4" 1 [2], .use b!"a" (.write 1 exSrc exMem 8), .use b!"a" .reopen] exTreeWorld with
  | .ok (xs, _) w => (bigFileList id b!"d/e" w).val?.map fun l => (xs.map (·.rc), l)
  | _ => none

example : exBList b!"b/c" = some ([0, 0, 0, 0], [b!"a", b!"b/c"]) := by decide +kernel
example : exBList b!"a/in" = some ([0, 0, 0, 0], [b!"a"]) := by decide +kernel

/-- Make the blocks `a`, of 5 rows, and `name`, of 2 rows, write to `a` if asked, close and open `a`: the sizes of its files. -/
def exBSizes (name : CStr) (use : List FileOp) : Option (List Nat) :=
  match runFileOps exEnv b!"d/e" (fun _ => none)
      ([.create b!"a" b!"i4" 1 [2, 0, 3], .create name b!"i4" 1 [2]] ++ use ++ [.use b!"a" .reopen]) exTreeWorld with
  | .ok (_, hs) _ => (hs b!"a").map Block.fsize
  | _ => none

/-- **C101 needs blocks apart.** Two names of one directory are one block on disk: making `./a` replaces `a`, and the
handle of `a`, if it is still used, puts back the old sizes. -/
theorem C101_same_directory : exBSizes b!"b" [] = some [2, 0, 3] ∧ exBSizes b!"./a" [] = some [2] ∧
    exBSizes b!"./a" [.use b!"a" (.write 1 exSrc exMem 8)] = some [2, 0, 3] := by decide +kernel

end Verif
