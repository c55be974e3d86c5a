import Verif.Spec.ErrMsg
/-!
# Error messages: proofs
-/

set_option autoImplicit false

namespace Verif

open Spec

/-! ## Formatting -/

theorem vfmt_plain (s : CStr) (a : List CStr) (h : NoPercent s) : vfmt false s a = some s := by
  induction s with
  | nil => simp [vfmt]
  | cons c r ih =>
    unfold NoPercent at h ih
    simp only [List.mem_cons, not_or] at h
    unfold vfmt
    rw [if_neg (fun hc => h.1 hc.symm), ih h.2]
    rfl

theorem digitsAux_short (k : Nat) : ∀ fuel n, n < 10 ^ (k + 1) → (digitsAux 10 fuel n).length ≤ k + 1 := by
  induction k with
  | zero =>
    intro fuel n h
    cases fuel with
    | zero => simp [digitsAux]
    | succ f => unfold digitsAux; rw [if_pos (by simpa using h)]; simp
  | succ k ih =>
    intro fuel n h
    cases fuel with
    | zero => simp [digitsAux]
    | succ f =>
      unfold digitsAux
      split
      · simp
      · simp only [List.length_append, List.length_cons, List.length_nil]
        have := ih f (n / 10) (by rw [Nat.pow_succ] at h; omega)
        omega

theorem decStr_short {n : Nat} (h : n < 2147483648) : (decStr n).length ≤ 10 := digitsAux_short 9 _ _ (by omega)

theorem raiseText_fits {msg : CStr} {args : List CStr} {file : CStr} {line : Nat} (h : Sets (.raise msg args file line)) :
    ∃ t, raiseText msg args file line = some t ∧ message (.raise msg args file line) = some t := by
  obtain ⟨hl, t, ht, hlen⟩ := h
  have hd := decStr_short hl
  refine ⟨t, ?_, ht⟩
  unfold message at ht
  unfold raiseText raisePlace
  have e : msg ++ (b!" @(" ++ file ++ b!":" ++ decStr line ++ b!")") = msg ++ b!" @(" ++ file ++ b!":" ++ decStr line ++ b!")" := by simp
  dsimp only at ht ⊢
  rw [e, ht, if_pos (by simp; omega)]
  dsimp only
  rw [if_pos hlen]

/-! ## Buffers -/

theorem EShared.text_malloc (s : EShared) (t : CStr) (p : Nat) :
    (s.malloc t).text p = if p = s.bufs.length then some t else s.text p := by
  unfold EShared.text EShared.malloc
  dsimp only
  by_cases h : p = s.bufs.length
  · subst h; simp
  · rw [if_neg h]
    by_cases h1 : p < s.bufs.length
    · rw [List.getElem?_append_left h1]
    · rw [List.getElem?_eq_none (by simp; omega), List.getElem?_eq_none (by omega)]

theorem EShared.text_unused (s : EShared) : s.text s.bufs.length = none := by simp [EShared.text]

theorem EShared.free_some {s s' : EShared} {p : Nat} (h : s.free p = some s') :
    (s.text p).isSome ∧ s'.cur = s.cur ∧ ∀ q, s'.text q = if q = p then none else s.text q := by
  unfold EShared.free at h
  cases ht : s.text p with
  | none => rw [ht] at h; cases h
  | some t =>
    rw [ht] at h
    cases h
    refine ⟨rfl, rfl, fun q => ?_⟩
    unfold EShared.text at ht ⊢
    dsimp only
    have hlt : p < s.bufs.length := by
      apply Decidable.byContradiction
      intro hc
      rw [List.getElem?_eq_none (by omega)] at ht
      cases ht
    by_cases h : q = p
    · subst h; rw [if_pos rfl, List.getElem?_set_self hlt]; rfl
    · rw [if_neg h, List.getElem?_set_ne (Ne.symm h)]

theorem EShared.free_of {s : EShared} {p : Nat} (h : (s.text p).isSome) : ∃ s', s.free p = some s' := by
  unfold EShared.free
  cases ht : s.text p with
  | none => rw [ht] at h; cases h
  | some t => exact ⟨_, rfl⟩

/-! ## Who owns which buffer -/

/-- All owned buffers: the current message and those held by threads. -/
def ESys.owned (S : ESys) : List Nat := S.sh.cur.toList ++ S.ths.flatMap fun t => t.pc.holds

/-- The first call of `ops` has passed its exchange. -/
def EPc.post : EPc → Bool
  | .drop _ _ | .release _ => true
  | _ => false

/-- What is known of a thread that only sets messages. -/
def EThread.Sane (sh : EShared) (t : EThread) : Prop :=
  match t.pc with
  | .ready => True
  | .dup msg none => ∃ ops, t.ops = .set msg :: ops
  | .dup _ (some b) => ∃ op ops, t.ops = op :: ops ∧ (sh.text b).isSome ∧ sh.text b = message op
  | .swap p _ => ∃ op ops, t.ops = op :: ops ∧ p.bind sh.text = message op
  | .drop _ _ => ∃ op ops, t.ops = op :: ops
  | .release _ => ∃ op ops, t.ops = op :: ops
  | _ => False

theorem count_flatMap_set {α : Type} (f : α → List Nat) (p : Nat) : ∀ (l : List α) (i : Nat) (a a' : α), l[i]? = some a →
    ((l.set i a').flatMap f).count p + (f a).count p = (l.flatMap f).count p + (f a').count p := by
  intro l
  induction l with
  | nil => intro i a a' h; simp at h
  | cons b l ih =>
    intro i a a' h
    cases i with
    | zero =>
      simp only [List.getElem?_cons_zero, Option.some.injEq] at h
      subst h
      simp only [List.set_cons_zero, List.flatMap_cons, List.count_append]
      omega
    | succ i =>
      simp only [List.getElem?_cons_succ] at h
      have := ih i a a' h
      simp only [List.set_cons_succ, List.flatMap_cons, List.count_append]
      omega

/-- The invariant. -/
structure EInv (progs : List (List EOp)) (S0 S : ESys) : Prop where
  owned : ∀ p, S.owned.count p = if (S.sh.text p).isSome then 1 else 0
  len : S.ths.length = progs.length
  sane : ∀ t ∈ S.ths, t.Sane S.sh
  suffix : ∀ (i : Nat) (t : EThread) (prog : List EOp), S.ths[i]? = some t → progs[i]? = some prog → ∃ fin, prog = fin ++ t.ops
  last : (S.sh.cur = S0.sh.cur ∧ current S.sh = current S0.sh ∧ ∀ (i : Nat) (t : EThread) (prog : List EOp), S.ths[i]? = some t → progs[i]? = some prog →
      t.pc.post = false ∧ t.ops = prog) ∨
    ∃ (i : Nat) (t : EThread) (prog fin : List EOp) (op : EOp), S.ths[i]? = some t ∧ progs[i]? = some prog ∧ current S.sh = message op ∧
      (prog = fin ++ op :: t.ops ∧ t.pc.post = false ∨ ∃ rest, prog = fin ++ t.ops ∧ t.ops = op :: rest ∧ t.pc.post = true)

/-- An upper bound of the steps a thread still makes. -/
def EThread.left (t : EThread) : Nat := 5 * t.ops.length - match t.pc with
  | .dup _ _ => 1
  | .swap _ _ => 2
  | .drop _ _ => 3
  | .release _ => 4
  | _ => 0

/-- What a step of a thread does. -/
structure ELocal (sh sh' : EShared) (t t' : EThread) : Prop where
  owned : ∀ p, (sh'.cur.toList ++ t'.pc.holds).count p + (if (sh.text p).isSome then 1 else 0) =
    (sh.cur.toList ++ t.pc.holds).count p + (if (sh'.text p).isSome then 1 else 0)
  stable : ∀ q, (sh.text q).isSome → q ∉ t.pc.holds → sh'.text q = sh.text q
  sane : t'.Sane sh'
  left : t'.left < t.left
  how : (sh'.cur = sh.cur ∧ t'.ops = t.ops ∧ t'.pc.post = t.pc.post) ∨
    (sh'.cur = sh.cur ∧ t.pc.post = true ∧ t'.pc.post = false ∧ ∃ op, t.ops = op :: t'.ops) ∨
    (t.pc.post = false ∧ t'.pc.post = true ∧ t'.ops = t.ops ∧ ∃ op rest, t.ops = op :: rest ∧ current sh' = message op)

theorem elocal_malloc (sh : EShared) (m : CStr) (h : List Nat) (p : Nat) :
    (sh.cur.toList ++ (sh.bufs.length :: h)).count p + (if (sh.text p).isSome then 1 else 0) =
    (sh.cur.toList ++ h).count p + (if ((sh.malloc m).text p).isSome then 1 else 0) := by
  rw [EShared.text_malloc]
  simp only [List.count_append, List.count_cons, beq_iff_eq]
  by_cases hp : p = sh.bufs.length
  · subst hp
    rw [EShared.text_unused]
    simp
    omega
  · rw [if_neg hp, if_neg (fun hc => hp hc.symm)]
    omega

theorem elocal_free {sh sh' : EShared} {b : Nat} {h : List Nat} (e : sh.free b = some sh') (p : Nat) :
    (sh'.cur.toList ++ h).count p + (if (sh.text p).isSome then 1 else 0) =
    (sh.cur.toList ++ (b :: h)).count p + (if (sh'.text p).isSome then 1 else 0) := by
  obtain ⟨h1, h2, h3⟩ := EShared.free_some e
  rw [h2, h3]
  simp only [List.count_append, List.count_cons, beq_iff_eq]
  by_cases hp : p = b
  · subst hp
    rw [if_pos h1]
    simp
    omega
  · rw [if_neg hp, if_neg (show ¬ b = p from fun hc => hp hc.symm)]
    omega

theorem elocal_malloc_stable {sh : EShared} {m : CStr} (q : Nat) (h : (sh.text q).isSome) : (sh.malloc m).text q = sh.text q := by
  rw [EShared.text_malloc]
  by_cases hq : q = sh.bufs.length
  · subst hq; rw [EShared.text_unused] at h; cases h
  · rw [if_neg hq]

/-- A thread that only sets messages, and whose buffers are allocated, makes a defined step. -/
theorem estep_local {sh : EShared} {t : EThread} (hs : t.Sane sh) (hf : ¬ t.finished) (hops : ∀ op ∈ t.ops, Sets op)
    (hown : ∀ b ∈ t.pc.holds, (sh.text b).isSome) :
    ∃ sh' t', estep true sh t = some (sh', t') ∧ ELocal sh sh' t t' := by
  obtain ⟨pc, ops⟩ := t
  cases pc with
  | ready =>
    cases ops with
    | nil => exact absurd ⟨rfl, rfl⟩ hf
    | cons op ops =>
      cases op with
      | set msg =>
        exact ⟨sh, ⟨.dup msg none, _⟩, rfl, ⟨fun p => rfl, fun q _ _ => rfl, ⟨ops, rfl⟩, by simp [EThread.left]; omega, Or.inl ⟨rfl, rfl, rfl⟩⟩⟩
      | raise msg args file line =>
        obtain ⟨x, hx, hm⟩ := raiseText_fits (hops (.raise msg args file line) (by simp))
        refine ⟨sh.malloc x, ⟨.dup none (some sh.bufs.length), .raise msg args file line :: ops⟩, ?_, ⟨?_, fun q hq _ => elocal_malloc_stable q hq,
          ⟨_, ops, rfl, ?_⟩, by simp [EThread.left]; omega, Or.inl ⟨rfl, rfl, rfl⟩⟩⟩
        · simp only [estep, raiseStart, hx, Option.map_some]
        · intro p
          exact elocal_malloc sh x [] p
        · rw [EShared.text_malloc, if_pos rfl]
          exact ⟨rfl, hm.symm⟩
      | reraise file line => exact (hops (.reraise file line) (by simp) : False).elim
      | get => exact (hops .get (by simp) : False).elim
  | dup msg mine =>
    cases mine with
    | none =>
      obtain ⟨rest, hr⟩ := hs
      change ops = _ at hr
      subst hr
      cases msg with
      | none =>
        exact ⟨sh, ⟨.swap none none, _⟩, rfl, ⟨fun p => rfl, fun q _ _ => rfl, ⟨_, rest, rfl, rfl⟩, by simp [EThread.left]; omega,
          Or.inl ⟨rfl, rfl, rfl⟩⟩⟩
      | some m =>
        refine ⟨sh.malloc m, ⟨.swap (some sh.bufs.length) none, _⟩, rfl, ⟨?_, fun q hq _ => elocal_malloc_stable q hq,
          ⟨_, rest, rfl, ?_⟩, by simp [EThread.left]; omega, Or.inl ⟨rfl, rfl, rfl⟩⟩⟩
        · intro p
          exact elocal_malloc sh m [] p
        · show (sh.malloc m).text sh.bufs.length = some m
          rw [EShared.text_malloc, if_pos rfl]
    | some b =>
      obtain ⟨op, rest, hr, hb, hm⟩ := hs
      change ops = _ at hr
      subst hr
      cases hx : sh.text b with
      | none => rw [hx] at hb; cases hb
      | some x =>
        refine ⟨sh.malloc x, ⟨.swap (some sh.bufs.length) (some b), _⟩, by simp only [estep, hx, Option.map_some], ⟨?_, fun q hq _ =>
          elocal_malloc_stable q hq, ⟨_, rest, rfl, ?_⟩, by simp [EThread.left]; omega, Or.inl ⟨rfl, rfl, rfl⟩⟩⟩
        · intro p
          exact elocal_malloc sh x [b] p
        · show (sh.malloc x).text sh.bufs.length = message op
          rw [EShared.text_malloc, if_pos rfl, ← hm, hx]
  | swap p mine =>
    obtain ⟨op, rest, hr, hm⟩ := hs
    change ops = _ at hr
    subst hr
    refine ⟨{ sh with cur := p }, ⟨.drop sh.cur mine, _⟩, rfl, ⟨?_, fun q _ _ => rfl, ⟨_, rest, rfl⟩, by simp [EThread.left]; omega,
      Or.inr (Or.inr ⟨rfl, rfl, rfl, op, rest, rfl, hm⟩)⟩⟩
    intro q
    show (p.toList ++ (sh.cur.toList ++ mine.toList)).count q + _ = (sh.cur.toList ++ (p.toList ++ mine.toList)).count q + _
    simp only [List.count_append]
    change _ + (if (sh.text q).isSome then 1 else 0) = _ + (if (sh.text q).isSome then 1 else 0)
    omega
  | put p old mine => exact hs.elim
  | drop old mine =>
    obtain ⟨op, rest, hr⟩ := hs
    change ops = _ at hr
    subst hr
    obtain ⟨sh', e, hown', hst⟩ : ∃ sh', sh.drop old = some sh' ∧
        (∀ p, (sh'.cur.toList ++ mine.toList).count p + (if (sh.text p).isSome then 1 else 0) =
          (sh.cur.toList ++ (old.toList ++ mine.toList)).count p + (if (sh'.text p).isSome then 1 else 0)) ∧
        (sh'.cur = sh.cur ∧ ∀ q, q ∉ old.toList → sh'.text q = sh.text q) := by
      cases old with
      | none => exact ⟨sh, rfl, fun p => rfl, rfl, fun q _ => rfl⟩
      | some b =>
        obtain ⟨sh', e⟩ := EShared.free_of (hown b (by simp [EPc.holds]))
        obtain ⟨_, h2, h3⟩ := EShared.free_some e
        refine ⟨sh', e, fun p => elocal_free (h := mine.toList) e p, h2, fun q hq => ?_⟩
        rw [h3, if_neg (by simpa using hq)]
    have hst' : ∀ q, (sh.text q).isSome → q ∉ (EPc.drop old mine).holds → sh'.text q = sh.text q := by
      intro q _ hq
      exact hst.2 q (fun hc => hq (List.mem_append_left _ hc))
    cases mine with
    | none =>
      refine ⟨sh', ⟨.ready, rest⟩, by simp only [estep, e, Option.map_some, EThread.back, List.tail_cons], ⟨hown', hst', trivial,
        by simp [EThread.left]; omega, Or.inr (Or.inl ⟨hst.1, rfl, rfl, op, rfl⟩)⟩⟩
    | some b =>
      exact ⟨sh', ⟨.release b, op :: rest⟩, by simp only [estep, e, Option.map_some, EThread.back], ⟨hown', hst', ⟨_, rest, rfl⟩,
        by simp [EThread.left]; omega, Or.inl ⟨hst.1, rfl, rfl⟩⟩⟩
  | release b =>
    obtain ⟨op, rest, hr⟩ := hs
    change ops = _ at hr
    subst hr
    obtain ⟨sh', e⟩ := EShared.free_of (hown b (by simp [EPc.holds]))
    obtain ⟨_, h2, h3⟩ := EShared.free_some e
    refine ⟨sh', ⟨.ready, rest⟩, by simp only [estep, e, Option.map_some, List.tail_cons], ⟨fun p => elocal_free (h := []) e p, ?_, trivial,
      by simp [EThread.left]; omega, Or.inr (Or.inl ⟨h2, rfl, rfl, op, rfl⟩)⟩⟩
    intro q _ hq
    rw [h3, if_neg (by simpa [EPc.holds] using hq)]
  | load => exact hs.elim
  | use p => exact hs.elim
  | look p => exact hs.elim

theorem Sane_stable {sh sh' : EShared} {t : EThread} (h : t.Sane sh)
    (hst : ∀ q ∈ t.pc.holds, sh'.text q = sh.text q) : t.Sane sh' := by
  obtain ⟨pc, ops⟩ := t
  cases pc with
  | dup msg mine =>
    cases mine with
    | none => exact h
    | some b =>
      obtain ⟨op, rest, h1, h2, h3⟩ := h
      have := hst b (by simp [EPc.holds])
      exact ⟨op, rest, h1, by rw [this]; exact h2, by rw [this]; exact h3⟩
  | swap p mine =>
    obtain ⟨op, rest, h1, h2⟩ := h
    refine ⟨op, rest, h1, ?_⟩
    cases p with
    | none => exact h2
    | some b =>
      have := hst b (by simp [EPc.holds])
      show sh'.text b = _
      rw [this]
      exact h2
  | _ => exact h

theorem getElem?_set_cases {α : Type} {l : List α} {i j : Nat} {a x : α} (h : (l.set i a)[j]? = some x) :
    (j = i ∧ x = a) ∨ (j ≠ i ∧ l[j]? = some x) := by
  by_cases hj : j = i
  · subst hj
    rw [List.getElem?_set] at h
    simp only [if_true] at h
    split at h
    · exact Or.inl ⟨rfl, (Option.some.inj h).symm⟩
    · cases h
  · rw [List.getElem?_set_ne (Ne.symm hj)] at h
    exact Or.inr ⟨hj, h⟩

theorem mem_flatMap_count {α : Type} (f : α → List Nat) {l : List α} {i j : Nat} {a b : α} {p : Nat} (hi : l[i]? = some a)
    (hj : l[j]? = some b) (hne : i ≠ j) (ha : p ∈ f a) (hb : p ∈ f b) : 2 ≤ (l.flatMap f).count p := by
  induction l generalizing i j with
  | nil => simp at hi
  | cons c l ih =>
    rw [List.flatMap_cons, List.count_append]
    have key : ∀ {k : Nat} {d : α}, l[k]? = some d → p ∈ f d → 1 ≤ (l.flatMap f).count p := by
      intro k d hk hd
      exact List.count_pos_iff.mpr (List.mem_flatMap.mpr ⟨d, List.mem_of_getElem? hk, hd⟩)
    cases i with
    | zero =>
      cases j with
      | zero => exact absurd rfl hne
      | succ j =>
        simp only [List.getElem?_cons_zero, Option.some.injEq] at hi
        simp only [List.getElem?_cons_succ] at hj
        subst hi
        have := List.count_pos_iff.mpr ha
        have := key hj hb
        omega
    | succ i =>
      cases j with
      | zero =>
        simp only [List.getElem?_cons_zero, Option.some.injEq] at hj
        simp only [List.getElem?_cons_succ] at hi
        subst hj
        have := List.count_pos_iff.mpr hb
        have := key hi ha
        omega
      | succ j =>
        simp only [List.getElem?_cons_succ] at hi hj
        have := ih hi hj (by omega)
        omega

/-- Everything a thread holds is allocated, and nobody else has it. -/
theorem EInv.held {progs : List (List EOp)} {S0 S : ESys} (h : EInv progs S0 S) {i : Nat} {t : EThread} (hi : S.ths[i]? = some t)
    {p : Nat} (hp : p ∈ t.pc.holds) : (S.sh.text p).isSome ∧ S.sh.cur ≠ some p ∧
      ∀ j u, S.ths[j]? = some u → j ≠ i → p ∉ u.pc.holds := by
  have h1 := h.owned p
  have h2 : 1 ≤ (S.ths.flatMap fun t => t.pc.holds).count p :=
    List.count_pos_iff.mpr (List.mem_flatMap.mpr ⟨t, List.mem_of_getElem? hi, hp⟩)
  unfold ESys.owned at h1
  rw [List.count_append] at h1
  refine ⟨?_, ?_, ?_⟩
  · cases hs : (S.sh.text p).isSome with
    | true => rfl
    | false => rw [hs] at h1; simp at h1; omega
  · intro hc
    rw [hc] at h1
    simp only [Option.toList_some, List.count_singleton_self] at h1
    split at h1 <;> omega
  · intro j u hj hne hu
    have := mem_flatMap_count (fun t : EThread => t.pc.holds) hi hj (Ne.symm hne) hp hu
    split at h1 <;> omega

theorem EInv.cur_live {progs : List (List EOp)} {S0 S : ESys} (h : EInv progs S0 S) {p : Nat} (hp : S.sh.cur = some p) :
    (S.sh.text p).isSome := by
  have h1 := h.owned p
  unfold ESys.owned at h1
  rw [List.count_append, hp] at h1
  simp only [Option.toList_some, List.count_singleton_self] at h1
  cases hs : (S.sh.text p).isSome with
  | true => rfl
  | false => rw [hs] at h1; simp at h1

theorem sum_set (f : EThread → Nat) : ∀ (l : List EThread) (i : Nat) (a a' : EThread), l[i]? = some a →
    ((l.set i a').map f).sum + f a = (l.map f).sum + f a' := by
  intro l
  induction l with
  | nil => intro i a a' h; simp at h
  | cons b l ih =>
    intro i a a' h
    cases i with
    | zero =>
      simp only [List.getElem?_cons_zero, Option.some.injEq] at h
      subst h
      simp only [List.set_cons_zero, List.map_cons, List.sum_cons]
      omega
    | succ i =>
      simp only [List.getElem?_cons_succ] at h
      have := ih i a a' h
      simp only [List.set_cons_succ, List.map_cons, List.sum_cons]
      omega

/-- The steps all threads still make, at most. -/
def ESys.left (S : ESys) : Nat := (S.ths.map EThread.left).sum

theorem EInv.thread_step {progs : List (List EOp)} {S0 S : ESys} (h : EInv progs S0 S) (hp : ∀ prog ∈ progs, ∀ op ∈ prog, Sets op)
    {i : Nat} {t : EThread} (hi : S.ths[i]? = some t) (hf : ¬ t.finished) :
    ∃ sh' t', estep true S.sh t = some (sh', t') ∧ EInv progs S0 ⟨sh', S.ths.set i t'⟩ ∧ ESys.left ⟨sh', S.ths.set i t'⟩ < S.left := by
  have hilt : i < S.ths.length := by
    apply Decidable.byContradiction
    intro hc
    rw [List.getElem?_eq_none (by omega)] at hi
    cases hi
  obtain ⟨prog, hprog⟩ : ∃ prog, progs[i]? = some prog := ⟨_, List.getElem?_eq_getElem (by rw [← h.len]; exact hilt)⟩
  obtain ⟨fin, hfin⟩ := h.suffix i t prog hi hprog
  obtain ⟨sh', t', e, L⟩ := estep_local (h.sane t (List.mem_of_getElem? hi)) hf
    (fun op hop => hp prog (List.mem_of_getElem? hprog) op (by rw [hfin]; simp [hop])) (fun b hb => (h.held hi hb).1)
  have hcurst : ∀ q, S.sh.cur = some q → sh'.text q = S.sh.text q := by
    intro q hq
    exact L.stable q (h.cur_live hq) (fun hc => (h.held hi hc).2.1 hq)
  have hcursame : sh'.cur = S.sh.cur → current sh' = current S.sh := by
    intro hc
    unfold current
    rw [hc]
    cases hq : S.sh.cur with
    | none => rfl
    | some q => exact hcurst q hq
  refine ⟨sh', t', e, ⟨?_, ?_, ?_, ?_, ?_⟩, ?_⟩
  · intro p
    have h1 := h.owned p
    have h2 := count_flatMap_set (fun t : EThread => t.pc.holds) p S.ths i t t' hi
    have h3 := L.owned p
    unfold ESys.owned at h1 ⊢
    rw [List.count_append] at h1 h3 ⊢
    rw [List.count_append] at h3
    dsimp only at h2 ⊢
    omega
  · rw [← h.len]; simp
  · intro u hu
    obtain ⟨j, hj⟩ := List.mem_iff_getElem?.mp hu
    rcases getElem?_set_cases hj with ⟨_, rfl⟩ | ⟨hne, hj⟩
    · exact L.sane
    · refine Sane_stable (h.sane u (List.mem_of_getElem? hj)) ?_
      intro q hq
      obtain ⟨k1, _, k3⟩ := h.held hj hq
      exact L.stable q k1 (k3 i t hi (Ne.symm hne))
  · intro j u pr hj hpr
    rcases getElem?_set_cases hj with ⟨rfl, rfl⟩ | ⟨hne, hj⟩
    · rw [hprog] at hpr
      cases hpr
      rcases L.how with ⟨_, ho, _⟩ | ⟨_, _, _, op, ho⟩ | ⟨_, _, ho, _⟩
      · exact ⟨fin, by rw [ho]; exact hfin⟩
      · exact ⟨fin ++ [op], by rw [hfin, ho]; simp⟩
      · exact ⟨fin, by rw [ho]; exact hfin⟩
    · exact h.suffix j u pr hj hpr
  · have hset : (S.ths.set i t')[i]? = some t' := by rw [List.getElem?_set_self hilt]
    rcases L.how with ⟨hc, ho, hpo⟩ | ⟨hc, hpo, hpo', op, ho⟩ | ⟨hpo, hpo', ho, op, rest, hop, hcur⟩
    · rcases h.last with ⟨k1, k2, k3⟩ | ⟨j, u, pr, fi, op, k1, k2, k3, k4⟩
      · refine Or.inl ⟨hc.trans k1, (hcursame hc).trans k2, ?_⟩
        intro j u pr hj hpr
        rcases getElem?_set_cases hj with ⟨rfl, rfl⟩ | ⟨hne, hj⟩
        · rw [hpo, ho]
          exact k3 _ t pr hi hpr
        · exact k3 j u pr hj hpr
      · right
        by_cases hji : j = i
        · subst hji
          rw [hi] at k1
          cases k1
          refine ⟨j, t', pr, fi, op, hset, k2, (hcursame hc).trans k3, ?_⟩
          rw [ho, hpo]
          exact k4
        · exact ⟨j, u, pr, fi, op, by rw [List.getElem?_set_ne (Ne.symm hji)]; exact k1, k2, (hcursame hc).trans k3, k4⟩
    · rcases h.last with ⟨k1, k2, k3⟩ | ⟨j, u, pr, fi, op', k1, k2, k3, k4⟩
      · have := (k3 i t prog hi hprog).1
        rw [hpo] at this
        cases this
      · right
        by_cases hji : j = i
        · subst hji
          rw [hi] at k1
          cases k1
          refine ⟨j, t', pr, fi, op', hset, k2, (hcursame hc).trans k3, ?_⟩
          rcases k4 with ⟨_, k5⟩ | ⟨rest, k4, k5, _⟩
          · rw [hpo] at k5; cases k5
          · rw [ho] at k5
            cases k5
            exact Or.inl ⟨by rw [k4, ho], hpo'⟩
        · exact ⟨j, u, pr, fi, op', by rw [List.getElem?_set_ne (Ne.symm hji)]; exact k1, k2, (hcursame hc).trans k3, k4⟩
    · exact Or.inr ⟨i, t', prog, fin, op, hset, hprog, hcur, Or.inr ⟨rest, by rw [ho]; exact hfin, by rw [ho]; exact hop, hpo'⟩⟩
  · have := sum_set EThread.left S.ths i t t' hi
    have := L.left
    unfold ESys.left
    dsimp only
    omega

theorem EInv.start {sh : EShared} {progs : List (List EOp)} (hq : Quiet sh) : EInv progs (ESys.start sh progs) (ESys.start sh progs) := by
  have hget : ∀ {i : Nat} {t : EThread} {prog : List EOp}, (progs.map fun ops => (⟨.ready, ops⟩ : EThread))[i]? = some t →
      progs[i]? = some prog → t = ⟨.ready, prog⟩ := by
    intro i t prog h1 h2
    rw [List.getElem?_map, h2] at h1
    exact (Option.some.inj h1).symm
  refine ⟨?_, by simp [ESys.start], ?_, ?_, Or.inl ⟨rfl, rfl, ?_⟩⟩
  · intro p
    have hz : ((progs.map fun ops => (⟨.ready, ops⟩ : EThread)).flatMap fun t => t.pc.holds) = [] := by
      rw [List.flatMap_map]
      simp [EPc.holds]
    unfold ESys.owned ESys.start
    dsimp only
    rw [hz, List.append_nil]
    have := hq p
    cases hc : sh.cur with
    | none =>
      rw [hc] at this
      simp at this
      simp [this]
    | some q =>
      rw [hc] at this
      simp only [Option.some.injEq] at this
      simp only [Option.toList_some, List.count_singleton, beq_iff_eq]
      by_cases hpq : q = p
      · rw [if_pos hpq, if_pos (this.mpr hpq)]
      · rw [if_neg hpq, if_neg (fun hc => hpq (this.mp hc))]
  · intro t ht
    simp only [ESys.start, List.mem_map] at ht
    obtain ⟨ops, _, rfl⟩ := ht
    exact trivial
  · intro i t prog h1 h2
    rw [hget h1 h2]
    exact ⟨[], rfl⟩
  · intro i t prog h1 h2
    rw [hget h1 h2]
    exact ⟨rfl, rfl⟩

theorem EInv.run {sh : EShared} {progs : List (List EOp)} (hq : Quiet sh) (hp : ∀ prog ∈ progs, ∀ op ∈ prog, Sets op) {n : Nat} {S : ESys}
    (h : ERun true n (ESys.start sh progs) S) :
    EInv progs (ESys.start sh progs) S ∧ n + S.left ≤ (ESys.start sh progs).left := by
  generalize hS0 : ESys.start sh progs = S0 at h
  induction h with
  | nil => subst hS0; exact ⟨EInv.start hq, by omega⟩
  | @step n S0 T U h hs ih =>
    obtain ⟨ih1, ih2⟩ := ih hS0
    obtain ⟨hi, hf, e⟩ := hs
    obtain ⟨sh', t', e', h1, h2⟩ := ih1.thread_step hp hi hf
    rw [e] at e'
    cases e'
    exact ⟨h1, by omega⟩

/-! ## One thread alone -/

theorem ERun.trans {a : Bool} {n m : Nat} {S T U : ESys} (h : ERun a n S T) (h' : ERun a m T U) : ERun a (n + m) S U := by
  induction h' with
  | nil => exact h
  | step _ hs ih => exact .step (ih h) hs

theorem ERun.one {a : Bool} {sh sh' : EShared} {t t' : EThread} (hf : ¬ t.finished) (h : estep a sh t = some (sh', t')) :
    ERun a 1 ⟨sh, [t]⟩ ⟨sh', [t']⟩ := .step (.nil _) (.step (i := 0) rfl hf h)

theorem EStep.alone {a : Bool} {sh : EShared} {t : EThread} {U : ESys} (h : EStep a ⟨sh, [t]⟩ U) :
    ¬ t.finished ∧ ∃ sh' t', estep a sh t = some (sh', t') ∧ U = ⟨sh', [t']⟩ := by
  generalize hS : (⟨sh, [t]⟩ : ESys) = S at h
  obtain ⟨hi, hf, e⟩ := h
  subst hS
  rename_i i u u' sh'
  cases i with
  | zero => cases hi; exact ⟨hf, _, _, e, rfl⟩
  | succ i => cases hi

/-- A single thread can do only one thing. -/
theorem ERun.alone {a : Bool} {n : Nat} {sh : EShared} {t : EThread} {S : ESys} (h : ERun a n ⟨sh, [t]⟩ S) (hf : S.finished) :
    ∀ {m : Nat} {T : ESys}, ERun a m ⟨sh, [t]⟩ T → ¬ T.Undefined a ∧ (T.finished → T = S) ∧ m ≤ n := by
  have single : ∀ {k : Nat} {T : ESys}, ERun a k ⟨sh, [t]⟩ T → ∃ sh' t', T = ⟨sh', [t']⟩ := by
    intro k T hT
    generalize hS : (⟨sh, [t]⟩ : ESys) = S0 at hT
    induction hT with
    | nil => exact ⟨sh, t, hS.symm⟩
    | step _ hs ih =>
      obtain ⟨sh', t', rfl⟩ := ih hS
      obtain ⟨_, sh2, t2, _, rfl⟩ := hs.alone
      exact ⟨_, _, rfl⟩
  have det : ∀ {k : Nat} {T T' : ESys}, ERun a k ⟨sh, [t]⟩ T → ERun a k ⟨sh, [t]⟩ T' → T = T' := by
    intro k
    induction k with
    | zero => intro T T' h1 h2; cases h1; cases h2; rfl
    | succ k ih =>
      intro T T' h1 h2
      cases h1 with
      | step h1 s1 =>
        cases h2 with
        | step h2 s2 =>
          have := ih h1 h2
          subst this
          obtain ⟨sh', t', rfl⟩ := single h1
          obtain ⟨_, a1, b1, e1, rfl⟩ := s1.alone
          obtain ⟨_, a2, b2, e2, rfl⟩ := s2.alone
          rw [e1] at e2
          cases e2
          rfl
  have pre : ∀ {k : Nat} {T : ESys}, ERun a k ⟨sh, [t]⟩ T → ∀ j, j ≤ k → ∃ R, ERun a j ⟨sh, [t]⟩ R ∧ (j < k → ∃ R', EStep a R R') := by
    intro k T hT
    generalize hS : (⟨sh, [t]⟩ : ESys) = S0 at hT
    induction hT with
    | nil => intro j hj; cases Nat.le_zero.mp hj; exact ⟨_, .nil _, fun h => absurd h (by omega)⟩
    | @step k S0 T U hT hs ih =>
      intro j hj
      by_cases h1 : j = k + 1
      · exact ⟨U, h1 ▸ .step hT hs, fun h => absurd h (by omega)⟩
      · by_cases h2 : j = k
        · exact ⟨T, h2 ▸ hT, fun _ => ⟨U, hs⟩⟩
        · obtain ⟨R, h3, h4⟩ := ih hS j (by omega)
          exact ⟨R, h3, fun _ => h4 (by omega)⟩
  intro m T hT
  have hmn : m ≤ n := by
    apply Decidable.byContradiction
    intro hc
    obtain ⟨R, h1, h2⟩ := pre hT n (by omega)
    obtain ⟨R', h3⟩ := h2 (by omega)
    have := det h h1
    subst this
    obtain ⟨sh', t', rfl⟩ := single h
    exact h3.alone.1 (hf t' (by simp))
  obtain ⟨R, h1, h2⟩ := pre h m hmn
  have := det hT h1
  subst this
  refine ⟨?_, ?_, hmn⟩
  · rintro ⟨i, u, hi, hu, e⟩
    by_cases hlt : m < n
    · obtain ⟨R', h3⟩ := h2 hlt
      obtain ⟨sh', t', rfl⟩ := single hT
      obtain ⟨_, a1, b1, e1, _⟩ := h3.alone
      cases i with
      | zero => cases hi; rw [e1] at e; cases e
      | succ i => cases hi
    · have : m = n := by omega
      subst this
      have := det hT h
      subst this
      exact hu (hf u (List.mem_of_getElem? hi))
  · intro hfin
    by_cases hlt : m < n
    · obtain ⟨R', h3⟩ := h2 hlt
      obtain ⟨sh', t', rfl⟩ := single hT
      exact absurd (hfin t' (by simp)) h3.alone.1
    · have : m = n := by omega
      subst this
      exact det hT h

theorem not_finished_of_ops {pc : EPc} {op : EOp} {ops : List EOp} : ¬ (EThread.finished ⟨pc, op :: ops⟩) := fun h => by cases h.2

/-- The rest of a call, from the exchange on. `live` are the buffers in use besides. -/
theorem swap_alone {sh : EShared} {p mine : Option Nat} {op : EOp} {ops : List EOp}
    (hl : ∀ q, (sh.text q).isSome ↔ sh.cur = some q ∨ p = some q ∨ mine = some q)
    (h1 : ∀ q, sh.cur = some q → p ≠ some q ∧ mine ≠ some q) (h2 : ∀ q, p = some q → mine ≠ some q) :
    ∃ n sh', ERun true n ⟨sh, [⟨.swap p mine, op :: ops⟩]⟩ ⟨sh', [⟨.ready, ops⟩]⟩ ∧ Quiet sh' ∧ current sh' = p.bind sh.text := by
  -- exchange and release the old message
  obtain ⟨sh3, e3, c3, t3⟩ : ∃ sh3, EShared.drop { sh with cur := p } sh.cur = some sh3 ∧ sh3.cur = p ∧
      ∀ q, sh3.text q = if sh.cur = some q then none else sh.text q := by
    cases hc : sh.cur with
    | none => exact ⟨_, rfl, rfl, fun q => by simp; rfl⟩
    | some b =>
      obtain ⟨sh', e⟩ := EShared.free_of (s := { sh with cur := p }) (p := b) ((hl b).mpr (Or.inl hc))
      obtain ⟨_, h3, h4⟩ := EShared.free_some e
      refine ⟨sh', e, h3, fun q => ?_⟩
      rw [h4]
      by_cases hq : q = b
      · subst hq; simp
      · rw [if_neg hq, if_neg (fun h => hq (Option.some.inj h).symm)]; rfl
  have r2 : ERun true 1 ⟨sh, [⟨.swap p mine, op :: ops⟩]⟩ ⟨{ sh with cur := p }, [⟨.drop sh.cur mine, op :: ops⟩]⟩ :=
    .one not_finished_of_ops rfl
  have r3 : ERun true 1 ⟨{ sh with cur := p }, [⟨.drop sh.cur mine, op :: ops⟩]⟩ ⟨sh3, [EThread.back ⟨.drop sh.cur mine, op :: ops⟩ mine]⟩ :=
    .one not_finished_of_ops (by simp only [estep, e3, Option.map_some])
  cases mine with
  | none =>
    refine ⟨_, sh3, r2.trans r3, ?_, ?_⟩
    · intro q
      rw [t3, c3]
      by_cases hq : sh.cur = some q
      · rw [if_pos hq]
        simp
        exact (h1 q hq).1
      · rw [if_neg hq, hl q]
        simp [hq]
    · unfold current
      rw [c3]
      cases hp : p with
      | none => rfl
      | some b =>
        show sh3.text b = sh.text b
        rw [t3, if_neg (fun hc => (h1 b hc).1 hp)]
  | some b =>
    have hb : (sh3.text b).isSome := by
      rw [t3, if_neg (fun hc => (h1 b hc).2 rfl)]
      exact (hl b).mpr (Or.inr (Or.inr rfl))
    obtain ⟨sh4, e4⟩ := EShared.free_of hb
    obtain ⟨_, c4, t4⟩ := EShared.free_some e4
    have r4 : ERun true 1 ⟨sh3, [EThread.back ⟨.drop sh.cur (some b), op :: ops⟩ (some b)]⟩ ⟨sh4, [⟨.ready, ops⟩]⟩ :=
      .one not_finished_of_ops (by simp only [estep, EThread.back, e4, Option.map_some, List.tail_cons])
    refine ⟨_, sh4, (r2.trans r3).trans r4, ?_, ?_⟩
    · intro q
      rw [t4, t3, c4, c3]
      by_cases hqb : q = b
      · subst hqb
        simp
        exact fun hc => h2 q hc rfl
      · rw [if_neg hqb]
        by_cases hq : sh.cur = some q
        · rw [if_pos hq]
          simp
          exact (h1 q hq).1
        · rw [if_neg hq, hl q]
          have : ¬ b = q := fun h => hqb h.symm
          simp [hq, this]
    · unfold current
      rw [c4, c3]
      cases hp : p with
      | none => rfl
      | some c =>
        show sh4.text c = sh.text c
        rw [t4, if_neg (fun hc => h2 c hp (by rw [hc])), t3, if_neg (fun hc => (h1 c hc).1 hp)]

theorem Quiet.cur_lt {sh : EShared} (hq : Quiet sh) {p : Nat} (h : sh.cur = some p) : p < sh.bufs.length := by
  have := (hq p).mpr h
  apply Decidable.byContradiction
  intro hc
  unfold EShared.text at this
  rw [List.getElem?_eq_none (by omega)] at this
  cases this

/-- The rest of `_big_file_raise`, from the call of `big_file_set_error_message` on. -/
theorem raised_alone {sh : EShared} (hq : Quiet sh) (x : CStr) (op : EOp) (ops : List EOp) :
    ∃ n sh', ERun true n ⟨sh.malloc x, [⟨.dup none (some sh.bufs.length), op :: ops⟩]⟩ ⟨sh', [⟨.ready, ops⟩]⟩ ∧ Quiet sh' ∧
      current sh' = some x := by
  have hx : (sh.malloc x).text sh.bufs.length = some x := by rw [EShared.text_malloc, if_pos rfl]
  have hlen : (sh.malloc x).bufs.length = sh.bufs.length + 1 := by simp [EShared.malloc]
  have r1 : ERun true 1 ⟨sh.malloc x, [⟨.dup none (some sh.bufs.length), op :: ops⟩]⟩
      ⟨(sh.malloc x).malloc x, [⟨.swap (some (sh.bufs.length + 1)) (some sh.bufs.length), op :: ops⟩]⟩ :=
    .one not_finished_of_ops (by simp only [estep, hx, Option.map_some, hlen])
  have hcur : ((sh.malloc x).malloc x).cur = sh.cur := rfl
  have htext : ∀ q, ((sh.malloc x).malloc x).text q = if q = sh.bufs.length + 1 then some x else
      if q = sh.bufs.length then some x else sh.text q := by
    intro q
    rw [EShared.text_malloc, EShared.text_malloc, hlen]
  obtain ⟨n, sh', r2, k1, k2⟩ := swap_alone (sh := (sh.malloc x).malloc x) (p := some (sh.bufs.length + 1)) (mine := some sh.bufs.length)
    (op := op) (ops := ops) (by
      intro q
      rw [htext, hcur]
      by_cases h1 : q = sh.bufs.length + 1
      · simp [h1]
      · rw [if_neg h1]
        by_cases h2 : q = sh.bufs.length
        · simp [h2]
        · rw [if_neg h2, hq q]
          have h3 : ¬ sh.bufs.length + 1 = q := fun h => h1 h.symm
          have h4 : ¬ sh.bufs.length = q := fun h => h2 h.symm
          simp [h3, h4])
    (by
      intro q hc
      rw [hcur] at hc
      have := Quiet.cur_lt hq hc
      simp
      omega)
    (by intro q hc; simp at hc ⊢; omega)
  refine ⟨_, sh', r1.trans r2, k1, ?_⟩
  rw [k2]
  show ((sh.malloc x).malloc x).text (sh.bufs.length + 1) = some x
  rw [htext, if_pos rfl]

theorem current_none {sh : EShared} (hq : Quiet sh) (h : sh.cur ≠ none) : current sh ≠ none := by
  unfold current
  cases hc : sh.cur with
  | none => exact absurd hc h
  | some p =>
    have := (hq p).mpr hc
    intro he
    change sh.text p = none at he
    rw [he] at this
    cases this

theorem raiseText_again {msg file : CStr} {line : Nat} (h1 : NoPercent msg) (h2 : NoPercent file) (hl : line < 2147483648)
    (hd : NoPercent (decStr line)) :
    raiseText msg [] file line = some (msg ++ b!" @(" ++ file ++ b!":" ++ decStr line ++ b!")") := by
  have hp : NoPercent (msg ++ raisePlace file line) := by
    unfold NoPercent raisePlace at *
    simp only [List.mem_append, not_or]
    exact ⟨h1, ⟨⟨⟨by decide, h2⟩, by decide⟩, hd⟩, by decide⟩
  have hlen := decStr_short hl
  unfold raiseText
  dsimp only
  have : (msg ++ raisePlace file line).length < msg.length + file.length + 512 := by
    unfold raisePlace
    simp
    omega
  rw [vfmt_plain _ _ hp, if_pos this]
  dsimp only
  rw [if_pos this]
  unfold raisePlace
  simp

theorem digitChar_noPercent (d : Nat) (h : d < 10) : digitChar d ≠ 37 := by
  unfold digitChar
  rw [if_pos h]
  intro hc
  have := congrArg UInt8.toNat hc
  simp at this
  omega

theorem digitsAux_noPercent : ∀ fuel n, NoPercent (digitsAux 10 fuel n) := by
  intro fuel
  induction fuel with
  | zero =>
    intro n
    unfold NoPercent digitsAux
    simp only [List.mem_singleton]
    exact fun h => digitChar_noPercent _ (Nat.mod_lt _ (by decide)) h.symm
  | succ f ih =>
    intro n
    unfold NoPercent digitsAux
    split
    · rename_i h
      simp only [List.mem_singleton]
      exact fun hc => digitChar_noPercent _ h hc.symm
    · simp only [List.mem_append, List.mem_singleton, not_or]
      exact ⟨ih _, fun h => digitChar_noPercent _ (Nat.mod_lt _ (by decide)) h.symm⟩

theorem decStr_noPercent (n : Nat) : NoPercent (decStr n) := digitsAux_noPercent _ _

/-- One call of a thread that is alone. -/
theorem call_alone {sh : EShared} (hq : Quiet sh) (op : EOp) (ops : List EOp) (h : MayCall (current sh) op) :
    ∃ n sh', ERun true n ⟨sh, [⟨.ready, op :: ops⟩]⟩ ⟨sh', [⟨.ready, ops⟩]⟩ ∧ Quiet sh' ∧ current sh' = messageAfter (current sh) op := by
  cases op with
  | set msg =>
    have r1 : ERun true 1 ⟨sh, [⟨.ready, .set msg :: ops⟩]⟩ ⟨sh, [⟨.dup msg none, .set msg :: ops⟩]⟩ := .one not_finished_of_ops rfl
    cases msg with
    | none =>
      have r2 : ERun true 1 ⟨sh, [⟨.dup none none, .set none :: ops⟩]⟩ ⟨sh, [⟨.swap none none, .set none :: ops⟩]⟩ :=
        .one not_finished_of_ops rfl
      obtain ⟨n, sh', r3, k1, k2⟩ := swap_alone (sh := sh) (p := none) (mine := none) (op := .set none) (ops := ops)
        (fun q => by rw [hq q]; simp) (fun q _ => by simp) (fun q h => by cases h)
      exact ⟨_, sh', (r1.trans r2).trans r3, k1, k2⟩
    | some m =>
      have r2 : ERun true 1 ⟨sh, [⟨.dup (some m) none, .set (some m) :: ops⟩]⟩
          ⟨sh.malloc m, [⟨.swap (some sh.bufs.length) none, .set (some m) :: ops⟩]⟩ := .one not_finished_of_ops rfl
      have hcur : (sh.malloc m).cur = sh.cur := rfl
      obtain ⟨n, sh', r3, k1, k2⟩ := swap_alone (sh := sh.malloc m) (p := some sh.bufs.length) (mine := none) (op := .set (some m))
        (ops := ops)
        (fun q => by
          rw [EShared.text_malloc, hcur]
          by_cases h1 : q = sh.bufs.length
          · simp [h1]
          · rw [if_neg h1, hq q]
            have : ¬ sh.bufs.length = q := fun h => h1 h.symm
            simp [this])
        (fun q hc => by
          rw [hcur] at hc
          have := Quiet.cur_lt hq hc
          simp
          omega) (fun q _ => by simp)
      refine ⟨_, sh', (r1.trans r2).trans r3, k1, ?_⟩
      rw [k2]
      show (sh.malloc m).text sh.bufs.length = some m
      rw [EShared.text_malloc, if_pos rfl]
  | raise msg args file line =>
    obtain ⟨x, hx, hm⟩ := raiseText_fits h
    have r1 : ERun true 1 ⟨sh, [⟨.ready, .raise msg args file line :: ops⟩]⟩
        ⟨sh.malloc x, [⟨.dup none (some sh.bufs.length), .raise msg args file line :: ops⟩]⟩ :=
      .one not_finished_of_ops (by simp only [estep, raiseStart, hx, Option.map_some])
    obtain ⟨n, sh', r2, k1, k2⟩ := raised_alone hq x (.raise msg args file line) ops
    exact ⟨_, sh', r1.trans r2, k1, by rw [k2]; exact hm.symm⟩
  | reraise file line =>
    obtain ⟨hl, hp1, hp2⟩ := h
    cases hc : sh.cur with
    | none =>
      have hcc : current sh = none := by unfold current; rw [hc]; rfl
      have hx := raiseText_again (msg := b!"UNKNOWN ERROR") (file := file) (line := line) (by unfold NoPercent; decide) hp2 hl (decStr_noPercent _)
      have r1 : ERun true 1 ⟨sh, [⟨.ready, .reraise file line :: ops⟩]⟩
          ⟨sh.malloc _, [⟨.dup none (some sh.bufs.length), .reraise file line :: ops⟩]⟩ :=
        .one not_finished_of_ops (by simp only [estep, hc, raiseStart, hx, Option.map_some]; rfl)
      obtain ⟨n, sh', r2, k1, k2⟩ := raised_alone hq _ (.reraise file line) ops
      exact ⟨_, sh', r1.trans r2, k1, by rw [k2, hcc]; rfl⟩
    | some p =>
      cases ht : sh.text p with
      | none =>
        have := (hq p).mpr hc
        rw [ht] at this
        cases this
      | some msg =>
        have hcc : current sh = some msg := by unfold current; rw [hc]; exact ht
        rw [hcc] at hp1 ⊢
        have hx := raiseText_again (msg := msg) (file := file) (line := line) hp1 hp2 hl (decStr_noPercent _)
        have r0 : ERun true 1 ⟨sh, [⟨.ready, .reraise file line :: ops⟩]⟩ ⟨sh, [⟨.load, .reraise file line :: ops⟩]⟩ :=
          .one not_finished_of_ops (by simp only [estep, hc])
        have r1 : ERun true 1 ⟨sh, [⟨.load, .reraise file line :: ops⟩]⟩ ⟨sh, [⟨.use (some p), .reraise file line :: ops⟩]⟩ :=
          .one not_finished_of_ops (by simp only [estep, hc])
        have r2 : ERun true 1 ⟨sh, [⟨.use (some p), .reraise file line :: ops⟩]⟩
            ⟨sh.malloc _, [⟨.dup none (some sh.bufs.length), .reraise file line :: ops⟩]⟩ :=
          .one not_finished_of_ops (by simp only [estep, Option.bind_some, ht, raiseStart, hx, Option.map_some]; rfl)
        obtain ⟨n, sh', r3, k1, k2⟩ := raised_alone hq _ (.reraise file line) ops
        exact ⟨_, sh', ((r0.trans r1).trans r2).trans r3, k1, by rw [k2]; rfl⟩
  | get =>
    have r1 : ERun true 1 ⟨sh, [⟨.ready, .get :: ops⟩]⟩ ⟨sh, [⟨.look sh.cur, .get :: ops⟩]⟩ := .one not_finished_of_ops rfl
    have r2 : ERun true 1 ⟨sh, [⟨.look sh.cur, .get :: ops⟩]⟩ ⟨sh, [⟨.ready, ops⟩]⟩ := by
      refine .one not_finished_of_ops ?_
      cases hc : sh.cur with
      | none => simp only [estep, List.tail_cons]
      | some p =>
        cases ht : sh.text p with
        | none =>
          have := (hq p).mpr hc
          rw [ht] at this
          cases this
        | some msg => simp only [estep, ht, Option.map_some, List.tail_cons]
    exact ⟨_, sh, r1.trans r2, hq, rfl⟩

theorem calls_alone : ∀ (ops : List EOp) {sh : EShared} (_ : Quiet sh) (_ : MayCallAll (current sh) ops),
    ∃ n sh', ERun true n ⟨sh, [⟨.ready, ops⟩]⟩ ⟨sh', [⟨.ready, []⟩]⟩ ∧ Quiet sh' ∧ current sh' = ops.foldl messageAfter (current sh) := by
  intro ops
  induction ops with
  | nil => intro sh hq _; exact ⟨0, sh, .nil _, hq, rfl⟩
  | cons op ops ih =>
    intro sh hq h
    obtain ⟨n, sh1, r1, q1, c1⟩ := call_alone hq op ops h.1
    obtain ⟨m, sh2, r2, q2, c2⟩ := ih q1 (by rw [c1]; exact h.2)
    exact ⟨_, sh2, r1.trans r2, q2, by rw [c2, c1]; rfl⟩

end Verif
