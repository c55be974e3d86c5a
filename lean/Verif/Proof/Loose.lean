import Verif.C.Loose
import Verif.Proof.Proc
/-!
# Runs in which collective calls do not synchronise end as the others
-/

set_option autoImplicit false

namespace Verif

variable {α : Type}

/-- The process that takes the step. -/
def LEvent.who : LEvent → Nat
  | .file r _ _ => r
  | .arrive r => r
  | .leave r => r

/-- Two events do not interfere. -/
def LIndep : LEvent → LEvent → Prop
  | .file r o f, .file s o' f' => r ≠ s → Commute o f o' f'
  | _, _ => True

/-! ## Leaving -/

/-- More has been posted. -/
def Posts.Grown (po po' : Posts) : Prop := ∀ on r, po on r <+: po' on r

theorem Posts.add_grown (po : Posts) (on : CommName × List Nat) (r : Nat) (x : CollKind × Msg) : po.Grown (po.add on r x) := by
  intro on' q
  unfold Posts.add
  split
  · exact List.prefix_append _ _
  · exact List.prefix_rfl

theorem getElem?_prefix {β : Type} {l l' : List β} (h : l <+: l') {i : Nat} {x : β} (hx : l[i]? = some x) : l'[i]? = some x := by
  obtain ⟨t, rfl⟩ := h
  have hi : i < l.length := by
    apply Classical.byContradiction
    intro hc
    rw [List.getElem?_eq_none (by omega)] at hx
    cases hx
  rw [List.getElem?_append_left hi]
  exact hx

theorem Fits.of_grown {po po' : Posts} (h : po.Grown po') {c : Call} {i : Nat} {l : List Msg} (hf : Fits po' c i l) : Fits po c i l :=
  ⟨hf.length, fun j r m hj hm => hf.agrees j r m hj (getElem?_prefix (h _ r) hm)⟩

/-- Some list agrees with what was posted. -/
theorem fits_exists (po : Posts) (c : Call) (i : Nat) : ∃ l, Fits po c i l := by
  refine ⟨c.members.map fun r => match (po c.on r)[i]? with | some (_, m) => m | none => {}, by simp, ?_⟩
  intro j r m hj hm
  rw [List.getElem?_map, hj]
  simp [hm]

theorem Leaves.grown {po po' : Posts} (h : po.Grown po') {c : Call} {i : Nat} {k : List Msg → Prog α} {p : Prog α}
    (hl : Leaves po c i k p) : Leaves po' c i k p := by
  refine ⟨fun hr r hm => ?_, fits_exists _ _ _, fun l hf => hl.2.2 l (hf.of_grown h)⟩
  obtain ⟨m, hm⟩ := hl.1 hr r hm
  exact ⟨m, getElem?_prefix (h _ r) hm⟩

theorem Leaves.unique {po : Posts} {c : Call} {i : Nat} {k : List Msg → Prog α} {p p' : Prog α}
    (h : Leaves po c i k p) (h' : Leaves po c i k p') : p = p' := by
  obtain ⟨l, hl⟩ := h.2.1
  rw [← h.2.2 l hl, h'.2.2 l hl]

/-! ## Steps -/

section
variable {F : Nat → Nat → Fault} {n : Nat}

/-- Two steps of one process are the same step. -/
theorem LStep.same {s s1 s2 : LConf α} {e1 e2 : LEvent} (h1 : LStep F n s e1 s1) (h2 : LStep F n s e2 s2)
    (hw : e1.who = e2.who) : e1 = e2 ∧ s1 = s2 := by
  cases h1 with
  | file r op k t a nd hr ht he =>
    cases h2 with
    | file r' op' k' t' a' nd' hr' ht' he' =>
      have hw : r = r' := hw
      subst hw
      rw [ht] at ht'
      cases ht'
      rw [he] at he'
      cases he'
      exact ⟨rfl, rfl⟩
    | arrive r' c v k' t' hr' hm ht' =>
      have hw : r = r' := hw
      subst hw
      rw [ht] at ht'
      cases ht'
    | leave r' c v k' t' i p hr' ht' hl =>
      have hw : r = r' := hw
      subst hw
      rw [ht] at ht'
      cases ht'
  | arrive r c v k t hr hm ht =>
    cases h2 with
    | file r' op' k' t' a' nd' hr' ht' he' =>
      have hw : r = r' := hw
      subst hw
      rw [ht] at ht'
      cases ht'
    | arrive r' c v k' t' hr' hm ht' =>
      have hw : r = r' := hw
      subst hw
      rw [ht] at ht'
      cases ht'
      exact ⟨rfl, rfl⟩
    | leave r' c v k' t' i p hr' ht' hl =>
      have hw : r = r' := hw
      subst hw
      rw [ht] at ht'
      cases ht'
  | leave r c v k t i p hr ht hl =>
    cases h2 with
    | file r' op' k' t' a' nd' hr' ht' he' =>
      have hw : r = r' := hw
      subst hw
      rw [ht] at ht'
      cases ht'
    | arrive r' c v k' t' hr' hm ht' =>
      have hw : r = r' := hw
      subst hw
      rw [ht] at ht'
      cases ht'
    | leave r' c v k' t' i p hr' ht' hl' =>
      have hw : r = r' := hw
      subst hw
      rw [ht] at ht'
      cases ht'
      rw [hl.unique hl']
      exact ⟨rfl, rfl⟩

theorem LStep.other {s s' : LConf α} {e : LEvent} {r : Nat} (h : LStep F n s e s') (hr : r ≠ e.who) : s'.thr r = s.thr r := by
  cases h <;> exact if_neg hr

theorem LStep.grown {s s' : LConf α} {e : LEvent} (h : LStep F n s e s') : s.posts.Grown s'.posts := by
  cases h with
  | file r op k t a nd hr ht he => exact fun _ _ => List.prefix_rfl
  | arrive r c v k t hr hm ht => exact Posts.add_grown _ _ _ _
  | leave r c v k t i p hr ht hl => exact fun _ _ => List.prefix_rfl

/-- A step of another process is still possible after a step. -/
theorem LStep.still (hF : NoCrash F) {s s1 s2 : LConf α} {e1 e : LEvent} (h1 : LStep F n s e1 s1) (h : LStep F n s e s2)
    (hd : e.who ≠ e1.who) : ∃ d, LStep F n s1 e d := by
  cases h with
  | file r op k t a nd hr ht he =>
    obtain ⟨a', nd', he'⟩ := op.exec_some (hF r t) s1.nodes
    exact ⟨_, .file s1 r op k t a' nd' hr ((h1.other hd).trans ht) he'⟩
  | arrive r c v k t hr hm ht => exact ⟨_, .arrive s1 r c v k t hr hm ((h1.other hd).trans ht)⟩
  | leave r c v k t i p hr ht hl => exact ⟨_, .leave s1 r c v k t i p hr ((h1.other hd).trans ht) (hl.grown h1.grown)⟩

theorem LConf.put_comm (s : LConf α) {r q : Nat} (h : r ≠ q) (t u : LThread α) (nd nd' nd2 : Nodes) (po po' po2 : Posts) :
    (s.put r t nd po).put q u nd2 po2 = (s.put q u nd' po').put r t nd2 po2 := by
  simp only [LConf.put, LConf.mk.injEq, and_true]
  funext x
  by_cases h1 : x = q <;> by_cases h2 : x = r <;> simp [h1, h2]
  · omega
  · intro e; omega
  · intro e; omega

theorem Posts.add_comm (po : Posts) (on on' : CommName × List Nat) {r q : Nat} (h : r ≠ q) (x y : CollKind × Msg) :
    (po.add on r x).add on' q y = (po.add on' q y).add on r x := by
  funext o z
  unfold Posts.add
  by_cases h1 : z = r
  · subst h1
    simp [h]
  · simp [h1]

theorem Posts.add_other (po : Posts) (on on' : CommName × List Nat) {r q : Nat} (h : q ≠ r) (x : CollKind × Msg) :
    po.add on r x on' q = po on' q := by
  unfold Posts.add
  rw [if_neg (fun hc => h hc.2)]

/-- Two independent steps of different processes can be exchanged. -/
theorem LStep.swap {s s1 s2 d : LConf α} {e1 e : LEvent} (h1 : LStep F n s e1 s1) (h : LStep F n s e s2)
    (hd : e.who ≠ e1.who) (hi : LIndep e1 e) (hs : LStep F n s1 e d) : LStep F n s2 e1 d := by
  have t1 := h.other (r := e1.who) hd.symm
  have t2 := h1.other (r := e.who) hd
  cases h1 with
  | file r1 op1 k1 c1 a1 nd1 hr1 ht1 he1 =>
    rw [show s.thr (LEvent.file r1 op1 (F r1 c1)).who = _ from ht1] at t1
    cases h with
    | file r op k t a nd hr ht he =>
      have hi' : Commute op1 (F r1 c1) op (F r t) := hi (Ne.symm hd)
      obtain ⟨nd2, g1, g2⟩ := hi' _ _ _ _ _ he1 he
      obtain ⟨_, rfl⟩ := hs.same (.file _ r op k t a nd2 hr (by rw [← ht]; exact t2) g1) rfl
      rw [LConf.put_comm s (show r1 ≠ r from Ne.symm hd) _ _ nd1 nd nd2 _ s.posts]
      exact .file _ r1 op1 k1 c1 a1 nd2 hr1 t1 g2
    | arrive r c v k t hr hm ht =>
      obtain ⟨_, rfl⟩ := hs.same (.arrive _ r c v k t hr hm (by rw [← ht]; exact t2)) rfl
      show LStep F n _ _ ((s.put r1 _ nd1 s.posts).put r _ nd1 _)
      rw [LConf.put_comm s (show r1 ≠ r from Ne.symm hd) _ _ nd1 s.nodes nd1 _ (s.posts.add c.on r (c.kind, v))]
      exact .file _ r1 op1 k1 c1 a1 nd1 hr1 t1 he1
    | leave r c v k t i p hr ht hl =>
      obtain ⟨_, rfl⟩ := hs.same (.leave _ r c v k t i p hr (by rw [← ht]; exact t2) hl) rfl
      show LStep F n _ _ ((s.put r1 _ nd1 s.posts).put r _ nd1 _)
      rw [LConf.put_comm s (show r1 ≠ r from Ne.symm hd) _ _ nd1 s.nodes nd1 _ s.posts]
      exact .file _ r1 op1 k1 c1 a1 nd1 hr1 t1 he1
  | arrive r1 c1 v1 k1 i1 hr1 hm1 ht1 =>
    rw [show s.thr (LEvent.arrive r1).who = _ from ht1] at t1
    cases h with
    | file r op k t a nd hr ht he =>
      obtain ⟨_, rfl⟩ := hs.same (.file _ r op k t a nd hr (by rw [← ht]; exact t2) he) rfl
      show LStep F n _ _ ((s.put r1 _ s.nodes (s.posts.add c1.on r1 (c1.kind, v1))).put r _ nd _)
      rw [LConf.put_comm s (show r1 ≠ r from Ne.symm hd) _ _ s.nodes nd nd _ s.posts]
      exact .arrive _ r1 c1 v1 k1 i1 hr1 hm1 t1
    | arrive r c v k t hr hm ht =>
      obtain ⟨_, rfl⟩ := hs.same (.arrive _ r c v k t hr hm (by rw [← ht]; exact t2)) rfl
      have hd' : r ≠ r1 := hd
      show LStep F n _ _ ((s.put r1 _ s.nodes (s.posts.add c1.on r1 (c1.kind, v1))).put r
        ⟨.coll c v k, t, some ((s.posts.add c1.on r1 (c1.kind, v1)) c.on r).length⟩ s.nodes
        ((s.posts.add c1.on r1 (c1.kind, v1)).add c.on r (c.kind, v)))
      rw [Posts.add_other _ _ _ hd', Posts.add_comm _ _ _ hd'.symm,
        LConf.put_comm s hd'.symm _ _ s.nodes s.nodes s.nodes _ (s.posts.add c.on r (c.kind, v)),
        ← Posts.add_other s.posts c.on c1.on hd'.symm (c.kind, v)]
      exact .arrive _ r1 c1 v1 k1 i1 hr1 hm1 t1
    | leave r c v k t i p hr ht hl =>
      obtain ⟨_, rfl⟩ := hs.same (.leave _ r c v k t i p hr (by rw [← ht]; exact t2) (hl.grown (Posts.add_grown _ _ _ _))) rfl
      show LStep F n _ _ ((s.put r1 _ s.nodes (s.posts.add c1.on r1 (c1.kind, v1))).put r _ s.nodes _)
      rw [LConf.put_comm s (show r1 ≠ r from Ne.symm hd) _ _ s.nodes s.nodes s.nodes _ s.posts]
      exact .arrive _ r1 c1 v1 k1 i1 hr1 hm1 t1
  | leave r1 c1 v1 k1 i1 j1 p1 hr1 ht1 hl1 =>
    rw [show s.thr (LEvent.leave r1).who = _ from ht1] at t1
    cases h with
    | file r op k t a nd hr ht he =>
      obtain ⟨_, rfl⟩ := hs.same (.file _ r op k t a nd hr (by rw [← ht]; exact t2) he) rfl
      show LStep F n _ _ ((s.put r1 _ s.nodes s.posts).put r _ nd _)
      rw [LConf.put_comm s (show r1 ≠ r from Ne.symm hd) _ _ s.nodes nd nd _ s.posts]
      exact .leave _ r1 c1 v1 k1 i1 j1 p1 hr1 t1 hl1
    | arrive r c v k t hr hm ht =>
      obtain ⟨_, rfl⟩ := hs.same (.arrive _ r c v k t hr hm (by rw [← ht]; exact t2)) rfl
      show LStep F n _ _ ((s.put r1 _ s.nodes s.posts).put r _ s.nodes _)
      rw [LConf.put_comm s (show r1 ≠ r from Ne.symm hd) _ _ s.nodes s.nodes s.nodes _ (s.posts.add c.on r (c.kind, v))]
      exact .leave _ r1 c1 v1 k1 i1 j1 p1 hr1 t1 (hl1.grown (Posts.add_grown _ _ _ _))
    | leave r c v k t i p hr ht hl =>
      obtain ⟨_, rfl⟩ := hs.same (.leave _ r c v k t i p hr (by rw [← ht]; exact t2) hl) rfl
      show LStep F n _ _ ((s.put r1 _ s.nodes s.posts).put r _ s.nodes _)
      rw [LConf.put_comm s (show r1 ≠ r from Ne.symm hd) _ _ s.nodes s.nodes s.nodes _ s.posts]
      exact .leave _ r1 c1 v1 k1 i1 j1 p1 hr1 t1 hl1

theorem LConf.Finished.stuck {s : LConf α} (h : s.Finished n) : s.Stuck F n := by
  intro e s' hs
  cases hs with
  | file r op k t a nd hr ht he =>
    obtain ⟨x, hx⟩ := h r hr
    rw [ht] at hx
    cases hx
  | arrive r c v k t hr hm ht =>
    obtain ⟨x, hx⟩ := h r hr
    rw [ht] at hx
    cases hx
  | leave r c v k t i p hr ht hl =>
    obtain ⟨x, hx⟩ := h r hr
    rw [ht] at hx
    cases hx

/-- Whatever step is taken first, the run can be completed to the same end with the same events. -/
theorem LRun.after_step (hF : NoCrash F) {f : LConf α} (hf : f.Finished n) :
    ∀ {s : LConf α} {es : List LEvent}, LRun F n s es f → (∀ a ∈ es, ∀ b ∈ es, LIndep a b) →
      ∀ {e : LEvent} {s' : LConf α}, LStep F n s e s' → ∃ es', LRun F n s' es' f ∧ (e :: es').Perm es := by
  intro s es h
  induction h with
  | nil s => intro _ e s' hs; exact absurd hs (hf.stuck e s')
  | cons h1 t ih =>
    rename_i s s1 f e1 es
    intro hI e s' hs
    by_cases hsh : e1.who = e.who
    · obtain ⟨rfl, rfl⟩ := h1.same hs hsh
      exact ⟨es, t, List.Perm.refl _⟩
    · have hd : e.who ≠ e1.who := fun hc => hsh hc.symm
      obtain ⟨d, hsd⟩ := h1.still hF hs hd
      obtain ⟨es', hrun, hperm⟩ := ih hf (fun a ha b hb => hI a (by simp [ha]) b (by simp [hb])) hsd
      have he : e ∈ es := hperm.subset (by simp)
      have hi : LIndep e1 e := hI e1 (by simp) e (by simp [he])
      exact ⟨e1 :: es', .cons (h1.swap hs hd hi hsd) hrun,
        (List.Perm.swap e1 e es').trans (List.Perm.cons e1 hperm)⟩

theorem LRun.confluent (hF : NoCrash F) {f : LConf α} (hf : f.Finished n)
    {s : LConf α} {es : List LEvent} (h : LRun F n s es f) (hI : ∀ a ∈ es, ∀ b ∈ es, LIndep a b)
    {es2 : List LEvent} {s2 : LConf α} (h2 : LRun F n s es2 s2) :
    ∃ es', LRun F n s2 es' f ∧ (es2 ++ es').Perm es := by
  induction h2 generalizing es with
  | nil s => exact ⟨es, h, List.Perm.refl _⟩
  | cons hs t ih =>
    rename_i e es2
    obtain ⟨es1, hr, hp⟩ := h.after_step hF hf hI hs
    obtain ⟨es', hr', hp'⟩ := ih hr (fun a ha b hb => hI a (hp.subset (by simp [ha])) b (hp.subset (by simp [hb])))
    exact ⟨es', hr', (List.Perm.cons _ hp').trans hp⟩

theorem LRun.unique (hF : NoCrash F) {f : LConf α} (hf : f.Finished n)
    {s : LConf α} {es : List LEvent} (h : LRun F n s es f) (hI : ∀ a ∈ es, ∀ b ∈ es, LIndep a b)
    {es2 : List LEvent} {s2 : LConf α} (h2 : LRun F n s es2 s2) :
    es2.length ≤ es.length ∧ (s2.Stuck F n → s2 = f) := by
  obtain ⟨es', hr, hp⟩ := h.confluent hF hf hI h2
  refine ⟨?_, fun hst => ?_⟩
  · have := hp.length_eq
    rw [List.length_append] at this
    omega
  · cases hr with
    | nil => rfl
    | cons hs _ => exact absurd hs (hst _ _)

theorem LRun.trans {s s1 s2 : LConf α} {es es' : List LEvent}
    (h : LRun F n s es s1) (h' : LRun F n s1 es' s2) : LRun F n s (es ++ es') s2 := by
  induction h with
  | nil s => exact h'
  | cons hs _ ih => exact .cons hs (ih h')

/-! ## A run in which all leave together is such a run -/

/-- An event that is no file operation. -/
def LEvent.Quiet : LEvent → Prop
  | .file _ _ _ => False
  | _ => True

theorem Prog.WaitsAt.shape {c : Call} {p : Prog α} (h : p.WaitsAt c) : ∃ v k, p = .coll c v k := by
  cases p with
  | coll c' v k =>
    have h : c' = c := h
    subst h
    exact ⟨v, k, rfl⟩
  | ret a => exact h.elim
  | ub => exact h.elim
  | hang => exact h.elim
  | file op k => exact h.elim

/-- The processes of `L` arrive one after the other. -/
theorem arrive_all (c : Call) : ∀ (L : List Nat) (t : LConf α), L.Nodup →
    (∀ r ∈ L, r < n ∧ r ∈ c.members ∧ (t.thr r).prog.WaitsAt c ∧ (t.thr r).seat = none) →
    ∃ t' es, LRun F n t es t' ∧ (∀ e ∈ es, e.Quiet) ∧ t'.nodes = t.nodes ∧ (∀ r, r ∉ L → t'.thr r = t.thr r) ∧
      (∀ r ∈ L, t'.thr r = ⟨(t.thr r).prog, (t.thr r).clock, some (t.posts c.on r).length⟩) ∧
      ∀ on q, t'.posts on q = if on = c.on ∧ q ∈ L then t.posts on q ++ [(c.kind, (t.thr q).prog.offer)] else t.posts on q := by
  intro L
  induction L with
  | nil => intro t _ _; exact ⟨t, [], .nil _, nofun, rfl, fun _ _ => rfl, nofun, fun on q => by simp⟩
  | cons r L ih =>
    intro t hn h
    obtain ⟨hrL, hn⟩ := List.nodup_cons.mp hn
    obtain ⟨hr, hm, hw, hs⟩ := h r (by simp)
    obtain ⟨v, k, hp⟩ := hw.shape
    have ht : t.thr r = ⟨.coll c v k, (t.thr r).clock, none⟩ := by rw [← hp, ← hs]
    have hstep := LStep.arrive (F := F) (n := n) t r c v k _ hr hm ht
    generalize ht1 : t.put r ⟨.coll c v k, (t.thr r).clock, some (t.posts c.on r).length⟩ t.nodes
      (t.posts.add c.on r (c.kind, v)) = t1 at hstep
    have hoth : ∀ q, q ≠ r → t1.thr q = t.thr q := fun q hq => hstep.other hq
    obtain ⟨t', es, h1, h2, h3, h4, h5, h6⟩ := ih t1 hn (fun q hq => by
      rw [hoth q (fun e => hrL (e ▸ hq))]
      exact h q (by simp [hq]))
    have hpo : ∀ on q, t1.posts on q = t.posts.add c.on r (c.kind, v) on q := fun on q => by rw [← ht1]; rfl
    refine ⟨t', _, .cons hstep h1, ?_, by rw [h3, ← ht1]; rfl, ?_, ?_, ?_⟩
    · intro e he
      rcases List.mem_cons.mp he with rfl | he
      · trivial
      · exact h2 e he
    · intro q hq
      rw [h4 q (fun hc => hq (by simp [hc])), hoth q (fun e => hq (by simp [e]))]
    · intro q hq
      by_cases e : q = r
      · subst e
        rw [h4 q hrL, ← ht1]
        simp only [LConf.put, if_true, hp]
      · have hqL : q ∈ L := by
          rcases List.mem_cons.mp hq with h | h
          · exact absurd h e
          · exact h
        rw [h5 q hqL, hoth q e, hpo, Posts.add_other _ _ _ e]
    · intro on q
      rw [h6, hpo]
      by_cases e : q = r
      · subst e
        rw [if_neg (fun hc => hrL hc.2)]
        unfold Posts.add
        by_cases ho : on = c.on
        · simp [ho, hp, Prog.offer]
        · simp [ho]
      · rw [Posts.add_other _ _ _ e, hoth q e]
        simp [e]

/-- When all have posted, everybody may leave. -/
theorem leaves_of_posted {po : Posts} {c : Call} {i : Nat} {msg : Nat → Msg} {k : List Msg → Prog α}
    (hpo : ∀ r ∈ c.members, (po c.on r)[i]? = some (c.kind, msg r)) : Leaves po c i k (k (c.members.map msg)) := by
  refine ⟨fun _ q hq => ⟨_, hpo q hq⟩, fits_exists _ _ _, fun l hf => ?_⟩
  congr 1
  apply List.ext_getElem?
  intro j
  by_cases hj : j < c.members.length
  · have hj' : c.members[j]? = some c.members[j] := List.getElem?_eq_getElem hj
    rw [hf.agrees j _ _ hj' (hpo _ (List.getElem_mem hj)), List.getElem?_map, hj']
    rfl
  · rw [List.getElem?_eq_none (by rw [hf.length]; omega), List.getElem?_eq_none (by rw [List.length_map]; omega)]

/-- The processes of `L` leave one after the other. -/
theorem leave_all (c : Call) (i : Nat) (msg : Nat → Msg) : ∀ (L : List Nat) (t : LConf α), L.Nodup →
    (∀ r ∈ L, r < n ∧ (t.thr r).prog.WaitsAt c ∧ (t.thr r).seat = some i) →
    (∀ r ∈ c.members, (t.posts c.on r)[i]? = some (c.kind, msg r)) →
    ∃ t' es, LRun F n t es t' ∧ (∀ e ∈ es, e.Quiet) ∧ t'.nodes = t.nodes ∧ (∀ r, r ∉ L → t'.thr r = t.thr r) ∧
      (∀ r ∈ L, t'.thr r = ⟨(t.thr r).prog.receive (c.members.map msg), (t.thr r).clock, none⟩) ∧ t'.posts = t.posts := by
  intro L
  induction L with
  | nil => intro t _ _ _; exact ⟨t, [], .nil _, nofun, rfl, fun _ _ => rfl, nofun, rfl⟩
  | cons r L ih =>
    intro t hn h hpo
    obtain ⟨hrL, hn⟩ := List.nodup_cons.mp hn
    obtain ⟨hr, hw, hs⟩ := h r (by simp)
    obtain ⟨v, k, hp⟩ := hw.shape
    have ht : t.thr r = ⟨.coll c v k, (t.thr r).clock, some i⟩ := by rw [← hp, ← hs]
    have hl : Leaves t.posts c i k (k (c.members.map msg)) := leaves_of_posted hpo
    have hstep := LStep.leave (F := F) (n := n) t r c v k _ i _ hr ht hl
    generalize ht1 : t.put r ⟨k (c.members.map msg), (t.thr r).clock, none⟩ t.nodes t.posts = t1 at hstep
    have hoth : ∀ q, q ≠ r → t1.thr q = t.thr q := fun q hq => hstep.other hq
    have hp1 : t1.posts = t.posts := by rw [← ht1]; rfl
    obtain ⟨t', es, h1, h2, h3, h4, h5, h6⟩ := ih t1 hn (fun q hq => by
      rw [hoth q (fun e => hrL (e ▸ hq))]
      exact h q (by simp [hq])) (by rw [hp1]; exact hpo)
    refine ⟨t', _, .cons hstep h1, ?_, by rw [h3, ← ht1]; rfl, ?_, ?_, by rw [h6, hp1]⟩
    · intro e he
      rcases List.mem_cons.mp he with rfl | he
      · trivial
      · exact h2 e he
    · intro q hq
      rw [h4 q (fun hc => hq (by simp [hc])), hoth q (fun e => hq (by simp [e]))]
    · intro q hq
      by_cases e : q = r
      · subst e
        rw [h4 q hrL, ← ht1]
        simp only [LConf.put, if_true, hp, Prog.receive]
      · have hqL : q ∈ L := by
          rcases List.mem_cons.mp hq with h | h
          · exact absurd h e
          · exact h
        rw [h5 q hqL, hoth q e]

/-- The same processes and files; nobody is in a call, and the members of every communicator have posted as much. -/
structure Tracks (t : LConf α) (s : Conf α) : Prop where
  thr : ∀ r, t.thr r = ⟨(s.thr r).prog, (s.thr r).clock, none⟩
  nodes : t.nodes = s.nodes
  even : ∀ on : CommName × List Nat, ∀ q ∈ on.2, ∀ q' ∈ on.2, (t.posts on q).length = (t.posts on q').length

theorem tracks_loose (s : Conf α) : Tracks s.loose s := ⟨fun _ => rfl, rfl, fun _ _ _ _ _ => rfl⟩

theorem Tracks.tight {t : LConf α} {s : Conf α} (h : Tracks t s) : t.tight = s := by
  cases s
  unfold LConf.tight
  congr
  · funext r
    rw [h.thr r]
  · exact h.nodes

/-- What becomes of an event. -/
def LEvent.Of (e : Event) : LEvent → Prop
  | .file r op f => e = .file r op f
  | _ => True

theorem LEvent.Quiet.of {x : LEvent} (h : x.Quiet) (e : Event) : x.Of e := by
  cases x with
  | file r op f => exact h.elim
  | arrive r => trivial
  | leave r => trivial

theorem Step.loosely {s s' : Conf α} {e : Event} (h : Step F n s e s') {t : LConf α} (ht : Tracks t s) :
    ∃ t' es, LRun F n t es t' ∧ Tracks t' s' ∧ ∀ x ∈ es, x.Of e := by
  cases h with
  | file r op k u a nd hr hthr he =>
    have h1 : t.thr r = ⟨.file op k, u, none⟩ := by rw [ht.thr r, hthr]
    refine ⟨_, _, .cons (.file t r op k u a nd hr h1 (by rw [ht.nodes]; exact he)) (.nil _), ⟨?_, rfl, ht.even⟩, ?_⟩
    · intro q
      simp only [LConf.put, Conf.put]
      split
      · rfl
      · exact ht.thr q
    · intro x hx
      rw [List.mem_singleton.mp hx]
      rfl
  | coll c hne hall =>
    let L := (List.range n).filter (fun r => decide (r ∈ c.members))
    have hL : ∀ r, r ∈ L ↔ r ∈ c.members := by
      intro r
      simp only [L, List.mem_filter, List.mem_range, decide_eq_true_eq]
      exact ⟨fun h => h.2, fun h => ⟨(hall r h).1, h⟩⟩
    have hnd : L.Nodup := List.Pairwise.filter _ List.nodup_range
    obtain ⟨t1, es1, h1, h2, h3, h4, h5, h6⟩ := arrive_all (F := F) (n := n) c L t hnd (fun r hr => by
      have hm := (hL r).mp hr
      rw [ht.thr r]
      exact ⟨(hall r hm).1, hm, (hall r hm).2, rfl⟩)
    obtain ⟨q0, hq0⟩ := List.exists_mem_of_ne_nil _ hne
    have hlen : ∀ r ∈ c.members, (t.posts c.on r).length = (t.posts c.on q0).length :=
      fun r hr => ht.even c.on r hr q0 hq0
    obtain ⟨t2, es2, g1, g2, g3, g4, g5, g6⟩ := leave_all (F := F) (n := n) c (t.posts c.on q0).length
      (fun q => (s.thr q).prog.offer) L t1 hnd (fun r hr => by
        have hm := (hL r).mp hr
        rw [h5 r hr, ht.thr r]
        exact ⟨(hall r hm).1, (hall r hm).2, by rw [hlen r hm]⟩) (fun r hr => by
        rw [h6, if_pos ⟨rfl, (hL r).mpr hr⟩, ht.thr r, ← hlen r hr]
        simp)
    refine ⟨t2, es1 ++ es2, h1.trans g1, ⟨?_, by rw [g3, h3]; exact ht.nodes, ?_⟩, ?_⟩
    · intro r
      by_cases hr : r ∈ c.members
      · rw [g5 r ((hL r).mpr hr), h5 r ((hL r).mpr hr), ht.thr r]
        simp only [Conf.meet, if_pos hr]
      · rw [g4 r (fun hc => hr ((hL r).mp hc)), h4 r (fun hc => hr ((hL r).mp hc)), ht.thr r]
        simp only [Conf.meet, if_neg hr]
    · intro on q hq q' hq'
      rw [g6, h6, h6]
      by_cases ho : on = c.on
      · subst ho
        rw [if_pos ⟨rfl, (hL q).mpr hq⟩, if_pos ⟨rfl, (hL q').mpr hq'⟩]
        simp [hlen q hq, hlen q' hq']
      · rw [if_neg (fun hc => ho hc.1), if_neg (fun hc => ho hc.1)]
        exact ht.even on q hq q' hq'
    · intro x hx
      rcases List.mem_append.mp hx with hx | hx
      · exact (h2 x hx).of _
      · exact (g2 x hx).of _

theorem Run.loosely {s s' : Conf α} {es : List Event} (h : Run F n s es s') : ∀ {t : LConf α}, Tracks t s →
    ∃ t' les, LRun F n t les t' ∧ Tracks t' s' ∧ ∀ x ∈ les, ∃ e ∈ es, x.Of e := by
  induction h with
  | nil s => intro t ht; exact ⟨t, [], .nil _, ht, nofun⟩
  | cons hs _ ih =>
    intro t ht
    obtain ⟨t1, es1, h1, h2, h3⟩ := hs.loosely ht
    obtain ⟨t2, es2, g1, g2, g3⟩ := ih h2
    refine ⟨t2, es1 ++ es2, h1.trans g1, g2, fun x hx => ?_⟩
    rcases List.mem_append.mp hx with hx | hx
    · exact ⟨_, by simp, h3 x hx⟩
    · obtain ⟨e, he, ho⟩ := g3 x hx
      exact ⟨e, by simp [he], ho⟩

/-- A file operation is a step with synchronising calls too. -/
theorem LStep.strict {t t' : LConf α} {r : Nat} {op : FOp} {f : Fault} (h : LStep F n t (.file r op f) t') :
    Step F n t.tight (.file r op f) t'.tight := by
  cases h with
  | file r op k u a nd hr hthr he =>
    have h1 : t.tight.thr r = ⟨.file op k, u⟩ := by
      show (⟨(t.thr r).prog, (t.thr r).clock⟩ : Thread α) = _
      rw [hthr]
    have h2 := Step.file (F := F) (n := n) t.tight r op k u a nd hr h1 he
    have e : (t.put r ⟨k a, u + 1, none⟩ nd t.posts).tight = t.tight.put r ⟨k a, u + 1⟩ nd := by
      unfold LConf.tight LConf.put Conf.put
      congr
      funext q
      by_cases hq : q = r
      · simp [hq]
      · simp [hq]
    rw [e]
    exact h2

/-- What the file operations keep is kept. -/
theorem LRun.keeps {P : Nodes → Prop} {t t' : LConf α} {es : List LEvent} (h : LRun F n t es t')
    (hk : ∀ r op f, .file r op f ∈ es → ∀ s s' : Conf α, Step F n s (.file r op f) s' → P s.nodes → P s'.nodes)
    (hP : P t.nodes) : P t'.nodes := by
  induction h with
  | nil t => exact hP
  | cons hs _ ih =>
    refine ih (fun r op f hm => hk r op f (by simp [hm])) ?_
    cases hs with
    | file r op k u a nd hr hthr he => exact hk r op _ (by simp) _ _ (LStep.file _ r op k u a nd hr hthr he).strict hP
    | arrive r c v k u hr hm ht => exact hP
    | leave r c v k u i p hr ht hl => exact hP

/-- **Synchronisation does not matter.** If one run with synchronising calls ends with all processes returned, and
the operations of different processes in it commute, then all runs without synchronisation end like it. -/
theorem Run.loose_unique (hF : NoCrash F) {s s0 : Conf α} {es0 : List Event} (h : Run F n s es0 s0) (hf : s0.Finished n)
    (hI : ∀ a ∈ es0, ∀ b ∈ es0, Indep a b) :
    ∃ B, ∀ es t, LRun F n s.loose es t → es.length ≤ B ∧ (∀ r op f, .file r op f ∈ es → .file r op f ∈ es0) ∧
      (t.Stuck F n → t.tight = s0) := by
  obtain ⟨t0, les, h1, h2, h3⟩ := h.loosely (tracks_loose s)
  refine ⟨les.length, fun es t hr => ?_⟩
  have hfin : t0.Finished n := by
    intro r hr
    rw [h2.thr r]
    exact hf r hr
  have hfile : ∀ r op f, .file r op f ∈ les → .file r op f ∈ es0 := by
    intro r op f hm
    obtain ⟨e, he, rfl⟩ := h3 _ hm
    exact he
  have hI' : ∀ a ∈ les, ∀ b ∈ les, LIndep a b := fun a ha b hb => by
    cases a with
    | file r o f =>
      cases b with
      | file r' o' f' => exact hI _ (hfile _ _ _ ha) _ (hfile _ _ _ hb)
      | arrive r => trivial
      | leave r => trivial
    | arrive r => trivial
    | leave r => trivial
  obtain ⟨es', _, hp⟩ := h1.confluent hF hfin hI' hr
  obtain ⟨g1, g2⟩ := h1.unique hF hfin hI' hr
  exact ⟨g1, fun r op f hm => hfile r op f (hp.subset (by simp [hm])), fun hs => by rw [g2 hs]; exact h2.tight⟩

end

end Verif
