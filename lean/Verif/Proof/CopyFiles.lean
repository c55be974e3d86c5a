import Verif.Proof.RangeOps
import Verif.Proof.CopyMpi
import Verif.Spec.CopyFiles
/-!
# Processes that copy given ranges
-/

set_option autoImplicit false

namespace Verif

open Spec

variable {env : Env} {K : Kind} {A S T B : Content} {bb bd : Block} {job : Nat → Nat → Worker → Prog Worker} {loc : Nat × Nat → Nat × Nat}
  {cost : Nat × Nat → Nat}

/-- Doing some ranges one after another. -/
def rangesP (job : Nat → Nat → Worker → Prog Worker) : List (Nat × Nat) → Worker → Prog Worker
  | [], x => .ret x
  | (o, l) :: rs, x => (job o l x).bind (rangesP job rs)

theorem rangesP_append (job : Nat → Nat → Worker → Prog Worker) (a b : List (Nat × Nat)) (x : Worker) :
    rangesP job (a ++ b) x = (rangesP job a x).bind (rangesP job b) := by
  induction a generalizing x with
  | nil => rfl
  | cons p a ih =>
    obtain ⟨o, l⟩ := p
    show Prog.bind _ _ = Prog.bind (Prog.bind _ _) _
    rw [Prog.bind_assoc]
    congr 1
    funext y
    exact ih y

/-- Processes with given ranges. -/
def rangesStart (job : Nat → Nat → Worker → Prog Worker) (a : Nat → List (Nat × Nat)) (H : Nat → Block) (mem : Nat → Mem) (nd : Nodes) :
    Conf Worker := ⟨fun r => ⟨rangesP job (a r) ⟨0, H r, mem r⟩, 0⟩, nd⟩

/-- What the new block holds when these ranges have been copied. -/
def Spec.Content.copied (A B : Content) (l : List (Nat × Nat)) : Content :=
  { B with rows := fun r => if 0 < timesIn r l then A.rows r else B.rows r }

theorem Content.copied_nil : A.copied B [] = B := by
  unfold Content.copied
  simp [timesIn]

theorem Content.copied_snoc (l : List (Nat × Nat)) (o n : Nat) : A.copied B (l ++ [(o, n)]) =
    { A.copied B l with rows := fun r => if o ≤ r ∧ r < o + n then A.rows r else (A.copied B l).rows r } := by
  unfold Content.copied
  congr 1
  funext r
  dsimp only
  rw [timesIn_append, timesIn_one]
  by_cases h : o ≤ r ∧ r < o + n
  · rw [if_pos h, if_pos h, if_pos (by omega)]
  · rw [if_neg h, if_neg h, Nat.add_zero]

/-- Rows put in place by another process. -/
theorem Spec.Holds.putRows {b : Block} {fs : FS} (h : Holds env K b fs B) (p n : Nat) (hp : p + n ≤ B.size)
    (hlen : ∀ i, i < n → ∃ bytes, A.rows (p + i) = some bytes ∧ bytes.length = rowSize env.m b) :
    Holds env K b (putRows env.m b fs p (fun i => (A.rows (p + i)).getD []) n)
      { B with rows := fun r => if p ≤ r ∧ r < p + n then A.rows r else B.rows r } := by
  have hL := h.ok.layout
  have hlen' : ∀ i, i < n → ((A.rows (p + i)).getD []).length = rowSize env.m b := by
    intro i hi
    obtain ⟨bytes, h1, h2⟩ := hlen i hi
    rw [h1]
    exact h2
  have hfile : ∀ i, i < n → IsFile fs (fileKey b.basename (.data (rowFile b (p + i)))) := by
    intro i hi
    apply h.data
    obtain ⟨h1, _⟩ := locate_lt b.fsize (p + i) (by rw [← hL.size, h.size]; omega)
    have h2 := hL.nfile
    unfold rowFile
    omega
  have hnode : ∀ k, (∀ f, k ≠ fileKey b.basename (.data f)) →
      (Spec.putRows env.m b fs p (fun i => (A.rows (p + i)).getD []) n).node k = fs.node k := by
    intro k hk
    exact node_putRows_other _ _ _ _ _ _ _ (fun i _ => hk _)
  refine ⟨h.ok, h.kind, h.size, h.nfile, h.savable, h.attrs, h.pending, h.tame, ?_, ?_, ?_, ?_, ?_, ?_, ?_⟩
  · intro hpend
    obtain ⟨s1, s2, k1, k2, k3, k4⟩ := h.saved hpend
    refine ⟨s1, s2, ?_, ?_, k3, k4⟩
    · rw [readsV1_congr (hnode _ (fun f => fileKey_ne (by simp)))]; exact k1
    · rw [readsV2_congr (hnode _ (fun f => fileKey_ne (by simp)))]; exact k2
  · intro hd
    have := h.header hd
    unfold HeaderSays at this ⊢
    rw [bytes_congr (hnode _ (fun f => fileKey_ne (by simp))), hnode _ (fun f => fileKey_ne (by simp))]
    exact this
  · refine ⟨?_, ?_, ?_⟩
    · rw [hnode _ (fun f => resolve_ne_fileKey _ _)]; exact h.dir.dir
    · rw [hnode _ (fun f => fileKey_ne (by simp))]; exact h.dir.header
    · rw [hnode _ (fun f => fileKey_ne (by simp))]; exact h.dir.attr
  · rw [hnode _ (fun f => fileKey_ne (by simp))]; exact h.noOld
  · intro f hf
    by_cases hn : ∃ d, fs.node (fileKey b.basename (.data f)) = some (.file d)
    · have := (isFile_putRows env.m b fs p (fun i => (A.rows (p + i)).getD []) n (fileKey b.basename (.data f))).mpr hn
      obtain ⟨d', hd'⟩ := this
      rw [hd'] at hf
      exact absurd hf (by simp)
    · apply h.noDirs f
      rw [← hf, node_putRows_other]
      intro i hi he
      exact hn (he ▸ hfile i hi)
  · intro f hf
    rw [isFile_putRows]
    exact h.data f hf
  · intro r bytes hr
    by_cases hc : p ≤ r ∧ r < p + n
    · simp only [if_pos hc] at hr
      have := row_putRows_in env.m b fs p _ _ hlen' hfile (r - p) (by omega)
      rw [show p + (r - p) = r by omega, hr] at this
      refine ⟨by show r < B.size; omega, this, ?_⟩
      unfold Stored
      rw [this]
      have := hlen' (r - p) (by omega)
      rw [show p + (r - p) = r by omega, hr] at this
      exact this
    · simp only [if_neg hc] at hr
      obtain ⟨g1, g2, g3⟩ := h.rows r bytes hr
      have : row env.m (Spec.putRows env.m b fs p (fun i => (A.rows (p + i)).getD []) n) b r = row env.m fs b r :=
        row_putRows_out env.m b fs p _ _ (fun i hi => by rw [hlen' i hi]; exact Nat.le_refl _) r (by omega) g3
      refine ⟨g1, this.trans g2, ?_⟩
      unfold Stored
      rw [this]
      exact g3

/-- Nothing but the nodes matters. -/
theorem Spec.Holds.node {b : Block} {fs fs' : FS} (h : Holds env K b fs A) (he : fs'.node = fs.node) : Holds env K b fs' A :=
  h.congr (by rw [he]) (fun _ => by rw [he])

/-- The sum of the bytes of file `f` in these ranges. -/
def rangesSum (bd : Block) (A : Content) (f : Nat) (l : List (Nat × Nat)) : Nat :=
  (l.map fun x => rowsSum bd x.1 (fun i => (A.rows (x.1 + i)).getD []) f x.2).sum

def rangesLen (l : List (Nat × Nat)) : Nat := (l.map fun x => x.2).sum

/-- What is needed of the work on the range `(o, k)`: the source has the content `S`, and rows `d.1, ..., d.1+d.2-1` of the new block
get the content `T`, with at most `c` file operations. -/
structure JobOk (env : Env) (K : Kind) (S T : Content) (bb bd : Block) (B : Content) (job : Nat → Nat → Worker → Prog Worker)
    (d : Nat × Nat) (c o k : Nat) : Prop where
  inside : d.1 + d.2 ≤ B.size
  rows : ∀ i, i < d.2 → ∃ bytes, T.rows (d.1 + i) = some bytes ∧ bytes.length = K.nm * K.w
  alone : ∀ (w : World) (l : List (Nat × Nat)) (x : Worker), Holds env K bb w.fs S → Holds env K x.bb w.fs (T.copied B l) →
    SameShape bd x.bb → w.faults = noFaults →
    ∃ y w', (job o k x).interp w = .ok y w' ∧ y.rc = 0 ∧ w'.faults = noFaults ∧
      SameShape bd y.bb ∧ y.bb.attrset = x.bb.attrset ∧ y.bb.dirty = (decide (0 < d.2) || x.bb.dirty) ∧
      w'.fs = putRows env.m bd w.fs d.1 (fun i => (T.rows (d.1 + i)).getD []) d.2 ∧
      Holds env K bb w'.fs S ∧ Holds env K y.bb w'.fs (T.copied B (l ++ [d])) ∧
      (∀ f, y.bb.fchecksum.getD f 0 = (x.bb.fchecksum.getD f 0 + rangesSum bd T f [d]) % 4294967296)
  sat : ∀ x : Worker, BlockOk env bb K.w K.nm → bb.size = S.size → BlockOk env x.bb K.w K.nm → x.bb.size = B.size → SameShape bd x.bb →
    (job o k x).Sat (RangeOp env.m bb.basename bd d.1 d.2) (fun _ => True) c

/-- What is the same at all times: the source, and the shape of all handles. -/
structure CopySide (env : Env) (K : Kind) (A : Content) (bb bd : Block) (B : Content) : Prop where
  full : A.full
  size : B.size = A.size
  apart : Apart bb.basename bd.basename
  small : A.size + A.size < 9223372036854775808

/-- `copyRangeP` by a process alone. -/
theorem copyRange_alone (hc : CopySide env K A bb bd B) {w : World} {l : List (Nat × Nat)} (buf : Int) (x : Worker)
    (hs : Holds env K bb w.fs A) (hd : Holds env K x.bb w.fs (A.copied B l)) (hsh : SameShape bd x.bb)
    (hnf : w.faults = noFaults) (off n : Nat) (hn0 : 0 < n) (hoff : off + n ≤ A.size) :
    ∃ y w', (copyRangeP env bb buf off n x).interp w = .ok y w' ∧ y.rc = 0 ∧ w'.faults = noFaults ∧
      SameShape bd y.bb ∧ y.bb.attrset = x.bb.attrset ∧ y.bb.dirty = true ∧
      w'.fs = putRows env.m bd w.fs off (fun i => (A.rows (off + i)).getD []) n ∧
      Holds env K bb w'.fs A ∧ Holds env K y.bb w'.fs (A.copied B (l ++ [(off, n)])) ∧
      (∀ f, y.bb.fchecksum.getD f 0 = (x.bb.fchecksum.getD f 0 + rangesSum bd A f [(off, n)]) % 4294967296) := by
  obtain ⟨mem1, w1, ptr, z, w2, e1, hq, e2, hrc, hnf2, hshz, hat, ho, hd2, hput, hck, hdirty⟩ :=
    copy_chunk hs hd hnf (show (A.copied B l).size = A.size from hc.size) hc.full off n n (by omega) hn0
      (by have := hc.small; omega) buf x.mem
  have hsh2 : SameShape bd z.bb := hsh.trans hshz
  refine ⟨⟨0, z.bb, z.mem⟩, w2, ?_, rfl, hnf2, hsh2, hat, hdirty, by rw [hput, hsh.putRows env.m], ?_, ?_, ?_⟩
  · unfold copyRangeP
    refine (congrFun (Prog.interp_bind _ _) w).trans ?_
    rw [interp_readSimple]
    unfold M.bind
    rw [e1]
    dsimp only
    refine (congrFun (Prog.interp_bind _ _) w1).trans ?_
    rw [Prog.interp_lift, hq]
    simp only [M.lift, M.bind, M.pure, ne_eq, not_true_eq_false, if_false]
    refine (congrFun (Prog.interp_bind _ _) w1).trans ?_
    rw [interp_blockWrite]
    unfold M.bind
    rw [e2]
    simp only [hrc, not_true_eq_false, if_false]
    rfl
  · exact hs.outside (hsh.base ▸ hc.apart) ho
  · rw [Content.copied_snoc]
    exact hd2
  · intro f
    rw [hck f, hsh.rowsSum]
    simp [rangesSum]

/-- Copying a range is such work. -/
theorem copyRange_job (hc : CopySide env K A bb bd B) {nd : Nodes} (hs : Holds env K bb ⟨nd, []⟩ A) (buf : Int) {o k : Nat} (hk : 0 < k) (ho : o + k ≤ A.size) :
    JobOk env K A A bb bd B (copyRangeP env bb buf) (o, k) (4 * k) o k where
  inside := by rw [hc.size]; exact ho
  rows := by
    intro i hi
    have hf := hc.full (o + i) (by dsimp only at hi; omega)
    obtain ⟨bytes, hbytes⟩ := Option.isSome_iff_exists.mp hf
    refine ⟨bytes, hbytes, ?_⟩
    obtain ⟨_, h2, h3⟩ := hs.rows _ _ hbytes
    unfold Stored at h3
    rw [← h2, h3]
    unfold Spec.rowSize
    rw [hs.ok.item, hs.ok.memb]
    simp [Nat.mul_comm]
  alone := by
    intro w l x h1 h2 h3 h4
    obtain ⟨y, w', g1, g2, g3, g4, g5, g6, g7⟩ := copyRange_alone hc buf x h1 h2 h3 h4 o k hk ho
    exact ⟨y, w', g1, g2, g3, g4, g5, by rw [g6]; simp [hk], g7⟩
  sat := by
    intro x h1 h2 h3 h4 h5
    exact copyRangeP_sat h1 h3 h5 (by rw [h2, h4]; exact hc.size) hk (by rw [h2]; exact ho) buf x rfl

/-- `run_alone` with a bound on the number of operations. -/
theorem run_sat {α β : Type} {E : FOp → Prop} {P : α → Prop} {F : Nat → Nat → Fault} {n r : Nat} (hr : r < n) {k : α → Prog β} :
    ∀ {p : Prog α} {c : Nat} {w w' : World} {x : α} {s : Conf β}, p.interp w = .ok x w' → p.Sat E P c →
      s.thr r = ⟨p.bind k, w.clock⟩ → s.nodes = w.fs.node → w.faults = F r →
      ∃ es, Run F n s es (s.put r ⟨k x, w'.clock⟩ w'.fs.node) ∧ es.length ≤ c ∧
        ∀ e ∈ es, ∃ op t, e = .file r op (F r t) ∧ E op := by
  intro p
  induction p with
  | ret a =>
    intro c w w' x s h _ hs hn hf
    cases h
    refine ⟨[], ?_, by simp, by simp⟩
    rw [s.put_same r ⟨k a, w.clock⟩ w.fs.node hs hn]
    exact .nil s
  | ub => intro c w w' x s h; cases h
  | hang => intro c w w' x s h; cases h
  | coll c v k' ih => intro c w w' x s h; cases h
  | file op k' ih =>
    intro c w w' x s h hE hs hn hf
    have h' : M.bind op.run (fun r => (k' r).interp) w = .ok x w' := h
    unfold M.bind at h'
    cases c with
    | zero => exact hE.elim
    | succ c =>
      cases hop : op.run w with
      | ok a w1 =>
        rw [hop] at h'
        simp only at h'
        obtain ⟨he, hfa, hcl⟩ := FOp.run_exec hop
        rw [hf, ← hn] at he
        have hstep : Step F n s (.file r op (F r w.clock)) (s.put r ⟨(k' a).bind k, w.clock + 1⟩ w1.fs.node) :=
          .file s r op (fun a => (k' a).bind k) w.clock a w1.fs.node hr hs he
        obtain ⟨es, g2, g4, g3⟩ := ih a (s := s.put r ⟨(k' a).bind k, w.clock + 1⟩ w1.fs.node) h' (hE.2 a)
          (by simp [Conf.put, hcl]) rfl (by rw [hfa]; exact hf)
        rw [Conf.put_put] at g2
        refine ⟨_, .cons hstep g2, by simp; omega, ?_⟩
        intro e he
        rcases List.mem_cons.mp he with rfl | he
        · exact ⟨op, w.clock, rfl, hE.1⟩
        · exact g3 e he
      | crash w1 => rw [hop] at h'; cases h'
      | ub => rw [hop] at h'; cases h'
      | hang => rw [hop] at h'; cases h'

/-- The ranges of process `r`. -/
def mine (r : Nat) (ts : List (Nat × Nat × Nat)) : List (Nat × Nat) :=
  (ts.filter fun p => decide (p.1 = r)).map fun p => p.2

theorem mine_cons (r q o l : Nat) (ts : List (Nat × Nat × Nat)) :
    mine r ((q, o, l) :: ts) = if q = r then (o, l) :: mine r ts else mine r ts := by
  unfold mine
  by_cases h : q = r <;> simp [h]

theorem mine_append (r : Nat) (a b : List (Nat × Nat × Nat)) : mine r (a ++ b) = mine r a ++ mine r b := by
  simp [mine]

/-- The state between two ranges. -/
structure StageInv (env : Env) (K : Kind) (S T : Content) (bb bd : Block) (B : Content) (n : Nat) (X : Nat → Worker) (nd : Nodes)
    (l : List (Nat × Nat)) : Prop where
  src : Holds env K bb ⟨nd, []⟩ S
  dst : ∀ r, r < n → Holds env K (X r).bb ⟨nd, []⟩ (T.copied B l)
  shape : ∀ r, r < n → SameShape bd (X r).bb
  rc : ∀ r, r < n → (X r).rc = 0

theorem Spec.Holds.rowSize {b : Block} {fs : FS} (h : Holds env K b fs A) : Spec.rowSize env.m b = K.nm * K.w := by
  unfold Spec.rowSize
  rw [h.ok.item, h.ok.memb]
  simp [Nat.mul_comm]

/-- One range. -/
theorem stage_step {n : Nat} {X : Nat → Worker} {s : Conf Worker} {l : List (Nat × Nat)}
    (hi : StageInv env K S T bb bd B n X s.nodes l) {r o k c : Nat} {d : Nat × Nat} (hr : r < n) (hj : JobOk env K S T bb bd B job d c o k)
    {rest : Worker → Prog Worker} {t : Nat} (hth : s.thr r = ⟨(job o k (X r)).bind rest, t⟩) :
    ∃ es y t' nd', Run faultless n s es (s.put r ⟨rest y, t'⟩ nd') ∧ es.length ≤ c ∧
      (∀ e ∈ es, ∃ op, e = .file r op .none ∧ RangeOp env.m bb.basename bd d.1 d.2 op) ∧
      StageInv env K S T bb bd B n (upd X r y) nd' (l ++ [d]) ∧ y.bb.attrset = (X r).bb.attrset ∧
      y.bb.dirty = (decide (0 < d.2) || (X r).bb.dirty) ∧
      (∀ f, y.bb.fchecksum.getD f 0 = ((X r).bb.fchecksum.getD f 0 + rangesSum bd T f [d]) % 4294967296) := by
  obtain ⟨y, w', e, hrc, hnf, hsh, hat, hdirty, hput, hsrc, hdst, hck⟩ :=
    hj.alone ⟨⟨s.nodes, []⟩, noFaults, t⟩ l (X r) hi.src (hi.dst r hr) (hi.shape r hr) rfl
  have hsat := hj.sat (X r) hi.src.ok hi.src.size (hi.dst r hr).ok (hi.dst r hr).size (hi.shape r hr)
  obtain ⟨es, g1, g2, g3⟩ := run_sat (F := faultless) hr e hsat hth rfl rfl
  refine ⟨es, y, w'.clock, w'.fs.node, g1, g2, ?_, ⟨hsrc.node rfl, ?_, ?_, ?_⟩, hat, hdirty, hck⟩
  · intro e he
    obtain ⟨op, t, h1, h2⟩ := g3 e he
    exact ⟨op, h1, h2⟩
  · intro q hq
    by_cases h : q = r
    · subst h
      rw [upd_same]
      exact hdst.node rfl
    · rw [upd_ne _ _ h, Content.copied_snoc]
      have hb := hi.dst q hq
      have := hb.putRows (A := T) d.1 d.2 hj.inside (fun i hi' => by
        obtain ⟨bytes, hbytes, hl⟩ := hj.rows i hi'
        exact ⟨bytes, hbytes, by rw [hl, hb.rowSize]⟩)
      refine this.node ?_
      rw [hput, (hi.shape q hq).putRows env.m]
  · intro q hq
    by_cases h : q = r
    · subst h; rw [upd_same]; exact hsh
    · rw [upd_ne _ _ h]; exact hi.shape q hq
  · intro q hq
    by_cases h : q = r
    · subst h; rw [upd_same]; exact hrc
    · rw [upd_ne _ _ h]; exact hi.rc q hq

theorem rangesSum_append (bd : Block) (A : Content) (f : Nat) (a b : List (Nat × Nat)) :
    rangesSum bd A f (a ++ b) = rangesSum bd A f a + rangesSum bd A f b := by simp [rangesSum]

/-- All ranges, one process after another. -/
theorem serial_run (n : Nat) (ts : List (Nat × Nat × Nat))
    (hts : ∀ r o k, (r, o, k) ∈ ts → r < n ∧ JobOk env K S T bb bd B job (loc (o, k)) (cost (o, k)) o k) :
    ∀ (X : Nat → Worker) (t : Nat → Nat) (nd : Nodes) (l : List (Nat × Nat)), StageInv env K S T bb bd B n X nd l →
    ∃ (es : List Event) (Y : Nat → Worker) (t' : Nat → Nat) (nd' : Nodes), Run faultless n ⟨fun r => ⟨rangesP job (mine r ts) (X r), t r⟩, nd⟩ es ⟨fun r => ⟨.ret (Y r), t' r⟩, nd'⟩ ∧
      es.length ≤ (ts.map fun p => cost p.2).sum ∧
      (∀ e ∈ es, ∃ r o k op, (r, o, k) ∈ ts ∧ e = .file r op .none ∧ RangeOp env.m bb.basename bd (loc (o, k)).1 (loc (o, k)).2 op) ∧
      StageInv env K S T bb bd B n Y nd' (l ++ ts.map fun p => loc p.2) ∧
      (∀ r, r < n → (Y r).bb.attrset = (X r).bb.attrset ∧
        ((Y r).bb.dirty = ((mine r ts).any (fun p => decide (0 < (loc p).2)) || (X r).bb.dirty)) ∧
        ∀ f, (Y r).bb.fchecksum.getD f 0 % 4294967296 =
          ((X r).bb.fchecksum.getD f 0 + rangesSum bd T f ((mine r ts).map loc)) % 4294967296) := by
  induction ts with
  | nil =>
    intro X t nd l hi
    refine ⟨[], X, t, nd, .nil _, by simp, by simp, by simpa using hi, fun r _ => ⟨rfl, by simp [mine], fun f => by simp [mine, rangesSum]⟩⟩
  | cons p ts ih =>
    obtain ⟨r, o, k⟩ := p
    intro X t nd l hi
    obtain ⟨hr, hj⟩ := hts r o k (by simp)
    obtain ⟨es1, y, t1, nd1, g1, g2, g3, g4, g5, g6, g7⟩ := stage_step
      (s := ⟨fun q => ⟨rangesP job (mine q ((r, o, k) :: ts)) (X q), t q⟩, nd⟩) hi hr hj
      (rest := rangesP job (mine r ts)) (t := t r) (by
        dsimp only
        rw [mine_cons, if_pos rfl]
        rfl)
    obtain ⟨es2, Y, t2, nd2, k1, k2, k3, k4, k5⟩ := ih (fun r o k h => hts r o k (by simp [h])) (upd X r y) (upd t r t1) nd1
      (l ++ [loc (o, k)]) g4
    have hconf : (Conf.put (⟨fun q => ⟨rangesP job (mine q ((r, o, k) :: ts)) (X q), t q⟩, nd⟩ : Conf Worker) r
        ⟨rangesP job (mine r ts) y, t1⟩ nd1) =
        ⟨fun q => ⟨rangesP job (mine q ts) (upd X r y q), upd t r t1 q⟩, nd1⟩ := by
      unfold Conf.put
      congr 1
      funext q
      by_cases h : q = r
      · subst h
        rw [if_pos rfl, upd_same, upd_same]
      · rw [if_neg h, upd_ne _ _ h, upd_ne _ _ h]
        dsimp only
        rw [mine_cons, if_neg fun e => h e.symm]
    rw [hconf] at g1
    refine ⟨es1 ++ es2, Y, t2, nd2, g1.trans k1, ?_, ?_, ?_, ?_⟩
    · rw [List.length_append, List.map_cons, List.sum_cons]
      dsimp only
      omega
    · intro e he
      rcases List.mem_append.mp he with he | he
      · obtain ⟨op, h1, h2⟩ := g3 e he
        exact ⟨r, o, k, op, by simp, h1, h2⟩
      · obtain ⟨r', o', k', op, h0, h1, h2⟩ := k3 e he
        exact ⟨r', o', k', op, by simp [h0], h1, h2⟩
    · simpa using k4
    · intro q hq
      obtain ⟨h1, h2, h3⟩ := k5 q hq
      by_cases h : q = r
      · subst h
        rw [upd_same] at h1 h2 h3
        refine ⟨h1.trans g5, ?_, ?_⟩
        · rw [h2, g6, mine_cons, if_pos rfl, List.any_cons, ← Bool.or_assoc, Bool.or_comm (List.any _ _)]
        · intro f
          rw [h3 f, g7 f, mine_cons, if_pos rfl]
          have := rangesSum_append bd T f [loc (o, k)] ((mine q ts).map loc)
          rw [List.singleton_append] at this
          rw [List.map_cons, this]
          omega
      · rw [upd_ne _ _ h] at h1 h2 h3
        rw [mine_cons, if_neg fun e => h e.symm]
        exact ⟨h1, h2, h3⟩

/-! ## Programs continued -/

/-- Every process goes on after its program. -/
def Conf.bindAll {α : Type} (s : Conf α) (k : Nat → α → Prog α) : Conf α :=
  ⟨fun r => ⟨(s.thr r).prog.bind (k r), (s.thr r).clock⟩, s.nodes⟩

theorem Step.bindAll {α : Type} {F : Nat → Nat → Fault} {n : Nat} {s s' : Conf α} {e : Event} (h : Step F n s e s')
    (k : Nat → α → Prog α) : Step F n (s.bindAll k) e (s'.bindAll k) := by
  cases h with
  | file r op c t a nd hr ht he =>
    have := Step.file (F := F) (n := n) (s.bindAll k) r op (fun x => (c x).bind (k r)) t a nd hr (by simp [Conf.bindAll, ht, Prog.bind]) he
    have e2 : (s.bindAll k).put r ⟨(c a).bind (k r), t + 1⟩ nd = (s.put r ⟨c a, t + 1⟩ nd).bindAll k := by
      unfold Conf.put Conf.bindAll
      congr 1
      funext q
      by_cases h : q = r
      · subst h; simp
      · simp [h]
    rw [← e2]
    exact this
  | coll c hne hall =>
    have hw : ∀ r ∈ c.members, ∃ v f, (s.thr r).prog = .coll c v f := by
      intro r hr
      have := (hall r hr).2
      cases hp : (s.thr r).prog with
      | coll c' v f => rw [hp] at this; cases this; exact ⟨v, f, rfl⟩
      | _ => rw [hp] at this; exact this.elim
    have e1 : (c.members.map fun q => ((s.bindAll k).thr q).prog.offer) = c.members.map fun q => (s.thr q).prog.offer := by
      refine List.map_congr_left fun q hq => ?_
      obtain ⟨v, f, hv⟩ := hw q hq
      simp [Conf.bindAll, hv, Prog.bind, Prog.offer]
    have e2 : (s.bindAll k).meet c = (s.meet c).bindAll k := by
      unfold Conf.meet
      rw [e1]
      unfold Conf.bindAll
      congr 1
      funext q
      by_cases h : q ∈ c.members
      · obtain ⟨v, f, hv⟩ := hw q h
        simp [h, hv, Prog.bind, Prog.receive]
      · simp [h]
    rw [← e2]
    refine Step.coll _ c hne fun r hr => ⟨(hall r hr).1, ?_⟩
    obtain ⟨v, f, hv⟩ := hw r hr
    simp [Conf.bindAll, hv, Prog.bind, Prog.WaitsAt]

theorem Run.bindAll {α : Type} {F : Nat → Nat → Fault} {n : Nat} {s s' : Conf α} {es : List Event} (h : Run F n s es s')
    (k : Nat → α → Prog α) : Run F n (s.bindAll k) es (s'.bindAll k) := by
  induction h with
  | nil s => exact .nil _
  | cons h t ih => exact .cons (h.bindAll k) ih

theorem Run.snoc {α : Type} {F : Nat → Nat → Fault} {n : Nat} {s s1 s' : Conf α} {es : List Event} {e : Event} (h : Run F n s es s1)
    (hs : Step F n s1 e s') : Run F n s (es ++ [e]) s' := h.trans (.cons hs (.nil _))

/-- A process that has returned stays so. -/
theorem Run.ret_stays {α : Type} {F : Nat → Nat → Fault} {n : Nat} {s s' : Conf α} {es : List Event} (h : Run F n s es s') {r : Nat}
    {x : α} {t : Nat} (hr : s.thr r = ⟨.ret x, t⟩) : s'.thr r = ⟨.ret x, t⟩ := by
  induction h with
  | nil s => exact hr
  | cons h _ ih =>
    refine ih ?_
    cases h with
    | file q op k t a nd hq ht he =>
      have hne : r ≠ q := by
        intro e
        subst e
        rw [hr] at ht
        cases ht
      simp [Conf.put, hne, hr]
    | coll c hne hall =>
      have : r ∉ c.members := by
        intro hm
        have := (hall r hm).2
        rw [hr] at this
        exact this
      simp [Conf.meet, this, hr]

/-! ## The queue and the files -/

/-- The ranges that processes began to copy, with the process. -/
def takenRanges (es : List CopyEvent) : List (Nat × Nat × Nat) :=
  es.filterMap fun e => match e with | .taken r o l => some (r, o, l) | _ => none

theorem takenRanges_append (a b : List CopyEvent) : takenRanges (a ++ b) = takenRanges a ++ takenRanges b := by
  simp [takenRanges]

theorem queueEvents_append (a b : List FilesEvent) : queueEvents (a ++ b) = queueEvents a ++ queueEvents b := by
  simp [queueEvents]

theorem CopyEvent.isTalk.takes {e : CopyEvent} (h : e.isTalk = true) : takenRanges [e] = [] := by
  cases e <;> first | rfl | cases h

/-- What the files see of a run: the processes copy the ranges they were given. -/
theorem FilesRun.static {F : Nat → Nat → Fault} {n size chunk : Nat} {H : Nat → Block} {mem : Nat → Mem} {nd : Nodes}
    {es : List FilesEvent} {s : FilesConf} (h : FilesRun job F n size (filesStart chunk H mem nd) es s) :
    CopyRun n size (copyStart chunk) (queueEvents es) s.queue ∧
    ∃ es', Run F n (rangesStart job (fun r => mine r (takenRanges (queueEvents es))) H mem nd) es' s.procs ∧
      es.length = es'.length + (queueEvents es).length := by
  induction h with
  | nil => exact ⟨.nil _, [], .nil _, rfl⟩
  | snoc t h ih =>
    obtain ⟨ih1, es', ih2, ih3⟩ := ih
    rw [queueEvents_append, List.length_append]
    cases h with
    | talk e q hq he =>
      refine ⟨ih1.snoc hq, es', ?_, by simp [queueEvents] at *; omega⟩
      rw [takenRanges_append, show takenRanges (queueEvents [FilesEvent.queue e]) = [] from CopyEvent.isTalk.takes he, List.append_nil]
      exact ih2
    | file e p hp =>
      refine ⟨?_, es' ++ [e], ?_, by simp [queueEvents] at *; omega⟩
      · simpa [queueEvents] using ih1
      · simpa [queueEvents] using ih2.snoc hp
    | copied r o l q x t hq ht hx =>
      refine ⟨ih1.snoc hq, es', ?_, by simp [queueEvents] at *; omega⟩
      simpa [queueEvents, takenRanges] using ih2
    | failed r o l q x t hq ht hx =>
      refine ⟨ih1.snoc hq, es', ?_, by simp [queueEvents] at *; omega⟩
      simpa [queueEvents, takenRanges] using ih2
    | take r o l q x t hq ht =>
      refine ⟨ih1.snoc hq, es', ?_, by simp [queueEvents] at *; omega⟩
      have hb := ih2.bindAll fun q' y => if q' = r then job o l y else .ret y
      rw [takenRanges_append]
      refine (congr (congrArg (fun a => Run F n a es') ?_) ?_ : Run F n _ es' _ = Run F n _ es' _).mp hb
      · unfold rangesStart Conf.bindAll
        congr 1
        funext q'
        dsimp only
        rw [mine_append, rangesP_append]
        by_cases h : q' = r
        · subst h
          simp only [if_true]
          congr 2
          funext y
          show job o l y = rangesP job (mine q' [(q', o, l)]) y
          rw [mine_cons, if_pos rfl]
          exact (Prog.bind_ret _).symm
        · simp only [if_neg h]
          congr 2
          funext y
          show Prog.ret y = rangesP job (mine q' [(r, o, l)]) y
          rw [mine_cons, if_neg fun e => h e.symm]
          rfl
      · unfold Conf.bindAll Conf.put
        congr 1
        funext q'
        by_cases h : q' = r
        · subst h
          rw [ht]
          simp [Prog.bind]
        · simp only [if_neg h]
          rw [Prog.bind_ret]

/-- Every range that was taken is in this list of rows once. -/
theorem taken_rows {n size : Nat} {s0 : CopyConf} {es : List CopyEvent} {s : CopyConf} (t : CopyRun n size s0 es s)
    (h0 : ∀ r, atRanges (s0.worker r) = []) (row : Nat) :
    timesIn row ((takenRanges es).map fun p => p.2) =
      timesIn row (copiedRanges es) + timesIn row (failedRanges es) + sumTo n (fun r => timesIn row (atRanges (s.worker r))) := by
  induction t with
  | nil =>
    rw [sumTo_zero fun r _ => by rw [h0]; rfl]
    rfl
  | @snoc s1 s' es e t h ih =>
    rw [takenRanges_append, copiedRanges_append, failedRanges_append, List.map_append, timesIn_append, timesIn_append, timesIn_append]
    have key : ∀ (q : Nat) (w : WorkerAt) (s1 : CopyConf), q < n →
        sumTo n (fun r => timesIn row (atRanges (upd s1.worker q w r))) + timesIn row (atRanges (s1.worker q)) =
        sumTo n (fun r => timesIn row (atRanges (s1.worker r))) + timesIn row (atRanges w) := by
      intro q w s1 hq
      have := sumTo_change (f := fun r => timesIn row (atRanges (upd s1.worker q w r)))
        (g := fun r => timesIn row (atRanges (s1.worker r))) hq (fun p hp => by rw [upd_ne _ _ hp])
      rw [upd_same] at this
      exact this
    cases h with
    | hand offset chunk r q h hlt hr hm => exact ih
    | giveUp offset chunk r q h hlt hr hm => exact ih
    | allOut offset chunk h hge => exact ih
    | dismiss i h hi => exact ih
    | leave i h hi => exact ih
    | start r hr h =>
      have k1 := key r .waiting s1 hr.2
      rw [h] at k1
      have k2 : timesIn row ((takenRanges [.other]).map fun p => p.2) = 0 := rfl
      have k3 : timesIn row (copiedRanges [.other]) = 0 := rfl
      have k4 : timesIn row (failedRanges [.other]) = 0 := rfl
      have k5 : timesIn row (atRanges .starting) = 0 := rfl
      have k6 : timesIn row (atRanges .waiting) = 0 := rfl
      rw [k2, k3, k4]
      show _ = _ + sumTo n (fun q => timesIn row (atRanges (upd s1.worker r .waiting q)))
      omega
    | take r offset len q hr h hm =>
      have k1 := key r (.copying offset len) s1 hr.2
      rw [h] at k1
      have k2 : timesIn row ((takenRanges [.taken r offset len]).map fun p => p.2) = timesIn row [(offset, len)] := rfl
      have k3 : timesIn row (copiedRanges [.taken r offset len]) = 0 := rfl
      have k4 : timesIn row (failedRanges [.taken r offset len]) = 0 := rfl
      have k5 : timesIn row (atRanges .waiting) = 0 := rfl
      have k6 : timesIn row (atRanges (.copying offset len)) = timesIn row [(offset, len)] := rfl
      rw [k2, k3, k4]
      show _ = _ + sumTo n (fun q => timesIn row (atRanges (upd s1.worker r (.copying offset len) q)))
      omega
    | quit r q hr h hm =>
      have k1 := key r .left s1 hr.2
      rw [h] at k1
      have k2 : timesIn row ((takenRanges [.other]).map fun p => p.2) = 0 := rfl
      have k3 : timesIn row (copiedRanges [.other]) = 0 := rfl
      have k4 : timesIn row (failedRanges [.other]) = 0 := rfl
      have k5 : timesIn row (atRanges .waiting) = 0 := rfl
      have k6 : timesIn row (atRanges .left) = 0 := rfl
      rw [k2, k3, k4]
      show _ = _ + sumTo n (fun q => timesIn row (atRanges (upd s1.worker r .left q)))
      omega
    | copied r offset len hr h =>
      have k1 := key r .waiting s1 hr.2
      rw [h] at k1
      have k2 : timesIn row ((takenRanges [.copied r offset len]).map fun p => p.2) = 0 := rfl
      have k3 : timesIn row (copiedRanges [.copied r offset len]) = timesIn row [(offset, len)] := rfl
      have k4 : timesIn row (failedRanges [.copied r offset len]) = 0 := rfl
      have k5 : timesIn row (atRanges (.copying offset len)) = timesIn row [(offset, len)] := rfl
      have k6 : timesIn row (atRanges .waiting) = 0 := rfl
      rw [k2, k3, k4]
      show _ = _ + sumTo n (fun q => timesIn row (atRanges (upd s1.worker r .waiting q)))
      omega
    | failed r offset len hr h =>
      have k1 := key r .waiting s1 hr.2
      rw [h] at k1
      have k2 : timesIn row ((takenRanges [.failed r offset len]).map fun p => p.2) = 0 := rfl
      have k3 : timesIn row (copiedRanges [.failed r offset len]) = 0 := rfl
      have k4 : timesIn row (failedRanges [.failed r offset len]) = timesIn row [(offset, len)] := rfl
      have k5 : timesIn row (atRanges (.copying offset len)) = timesIn row [(offset, len)] := rfl
      have k6 : timesIn row (atRanges .waiting) = 0 := rfl
      rw [k2, k3, k4]
      show _ = _ + sumTo n (fun q => timesIn row (atRanges (upd s1.worker r .waiting q)))
      omega

/-- Orders were handed out, and so were the ranges that were taken. -/
theorem taken_handed {n size chunk : Nat} {es : List CopyEvent} {s : CopyConf} (t : CopyRun n size (copyStart chunk) es s) :
    (∀ r o l, .work o l ∈ s.toWorker r → .hand r o l ∈ es) ∧
    (∀ r o l, (r, o, l) ∈ takenRanges es → 1 ≤ r ∧ r < n ∧ .hand r o l ∈ es) := by
  induction t with
  | nil => exact ⟨fun r o l h => by simp [copyStart] at h, fun r o l h => by simp [takenRanges] at h⟩
  | @snoc s1 s' es e t h ih =>
    obtain ⟨ih1, ih2⟩ := ih
    have old : ∀ r o l, (r, o, l) ∈ takenRanges es → 1 ≤ r ∧ r < n ∧ .hand r o l ∈ es ++ [e] := fun r o l h =>
      ⟨(ih2 r o l h).1, (ih2 r o l h).2.1, by simp [(ih2 r o l h).2.2]⟩
    rw [takenRanges_append]
    cases h with
    | hand offset chunk r q h hlt hr hm =>
      refine ⟨fun r' o l h' => ?_, by simpa [takenRanges] using old⟩
      by_cases hq : r' = r
      · subst hq
        dsimp only at h'
        rw [upd_same] at h'
        rcases List.mem_append.mp h' with h' | h'
        · simp [ih1 _ _ _ h']
        · simp at h'
          simp [h']
      · dsimp only at h'
        rw [upd_ne _ _ hq] at h'
        simp [ih1 _ _ _ h']
    | giveUp offset chunk r q h hlt hr hm => exact ⟨fun r o l h => by simp [ih1 r o l h], by simpa [takenRanges] using old⟩
    | allOut offset chunk h hge => exact ⟨fun r o l h => by simp [ih1 r o l h], by simpa [takenRanges] using old⟩
    | dismiss i h hi =>
      refine ⟨fun r' o l h' => ?_, by simpa [takenRanges] using old⟩
      by_cases hq : r' = i
      · subst hq
        dsimp only at h'
        rw [upd_same] at h'
        rcases List.mem_append.mp h' with h' | h'
        · simp [ih1 _ _ _ h']
        · simp at h'
      · dsimp only at h'
        rw [upd_ne _ _ hq] at h'
        simp [ih1 _ _ _ h']
    | leave i h hi => exact ⟨fun r o l h => by simp [ih1 r o l h], by simpa [takenRanges] using old⟩
    | start r hr h => exact ⟨fun r o l h => by simp [ih1 r o l h], by simpa [takenRanges] using old⟩
    | take r offset len q hr h hm =>
      have hsub : ∀ r' o l, Order.work o l ∈ upd s1.toWorker r q r' → .work o l ∈ s1.toWorker r' := by
        intro r' o l h'
        by_cases hq : r' = r
        · subst hq
          rw [upd_same] at h'
          rw [hm]
          exact List.mem_cons_of_mem _ h'
        · rwa [upd_ne _ _ hq] at h'
      refine ⟨fun r' o l h' => by simp [ih1 _ _ _ (hsub _ _ _ h')], fun r' o l h' => ?_⟩
      rcases List.mem_append.mp h' with h' | h'
      · exact old _ _ _ h'
      · simp [takenRanges] at h'
        obtain ⟨rfl, rfl, rfl⟩ := h'
        exact ⟨hr.1, hr.2, by simp [ih1 r' o l (by rw [hm]; simp)]⟩
    | quit r q hr h hm =>
      have hsub : ∀ r' o l, Order.work o l ∈ upd s1.toWorker r q r' → .work o l ∈ s1.toWorker r' := by
        intro r' o l h'
        by_cases hq : r' = r
        · subst hq
          rw [upd_same] at h'
          rw [hm]
          exact List.mem_cons_of_mem _ h'
        · rwa [upd_ne _ _ hq] at h'
      exact ⟨fun r' o l h' => by simp [ih1 _ _ _ (hsub _ _ _ h')], by simpa [takenRanges] using old⟩
    | copied r offset len hr h => exact ⟨fun r o l h => by simp [ih1 r o l h], by simpa [takenRanges] using old⟩
    | failed r offset len hr h => exact ⟨fun r o l h => by simp [ih1 r o l h], by simpa [takenRanges] using old⟩

/-! ## Sums over ranges -/

theorem sumTo_add (n : Nat) (f g : Nat → Nat) : sumTo n (fun i => f i + g i) = sumTo n f + sumTo n g := by
  induction n with
  | zero => rfl
  | succ n ih => rw [sumTo_succ, sumTo_succ, sumTo_succ, ih]; omega

theorem sumTo_range (size o l : Nat) (h : o + l ≤ size) (g : Nat → Nat) :
    sumTo size (fun row => (if o ≤ row ∧ row < o + l then 1 else 0) * g row) = sumTo l (fun i => g (o + i)) := by
  induction size generalizing l with
  | zero =>
    have : l = 0 := by omega
    subst this; rfl
  | succ size ih =>
    rw [sumTo_succ]
    by_cases h1 : o + l = size + 1
    · cases l with
      | zero =>
        rw [if_neg (by omega), sumTo_zero fun r hr => by rw [if_neg (by omega)]; omega]
        simp [sumTo]
      | succ l =>
        have h2 : o + l = size := by omega
        rw [if_pos ⟨by omega, by omega⟩, sumTo_succ, ← ih l (by omega), h2, Nat.one_mul]
        congr 1
        refine sumTo_congr fun r hr => ?_
        congr 1
        by_cases h3 : o ≤ r
        · rw [if_pos (by omega), if_pos (by omega)]
        · rw [if_neg (by omega), if_neg (by omega)]
    · rw [ih l (by omega), if_neg (by omega)]
      omega

/-- The sum of something over the rows of some ranges. -/
theorem ranges_total (size : Nat) (g : Nat → Nat) (l : List (Nat × Nat)) (h : ∀ x ∈ l, x.1 + x.2 ≤ size) :
    (l.map fun x => sumTo x.2 (fun i => g (x.1 + i))).sum = sumTo size (fun row => timesIn row l * g row) := by
  induction l with
  | nil =>
    rw [sumTo_zero fun r _ => by rw [timesIn_nil]; omega]
    rfl
  | cons x l ih =>
    obtain ⟨o, k⟩ := x
    rw [List.map_cons, List.sum_cons, ih fun x hx => h x (by simp [hx])]
    have : ∀ row, timesIn row ((o, k) :: l) = (if o ≤ row ∧ row < o + k then 1 else 0) + timesIn row l := by
      intro row
      have := timesIn_append row [(o, k)] l
      rw [timesIn_one] at this
      exact this
    have h2 : sumTo size (fun row => timesIn row ((o, k) :: l) * g row) =
        sumTo size (fun row => (if o ≤ row ∧ row < o + k then 1 else 0) * g row + timesIn row l * g row) :=
      sumTo_congr fun row _ => by rw [this, Nat.add_mul]
    rw [h2, sumTo_add, sumTo_range size o k (h (o, k) (by simp)) g]

theorem rowsSum_sumTo (bd : Block) (p : Nat) (rows : Nat → List Byte) (f n : Nat) :
    rowsSum bd p rows f n = sumTo n (fun i => if rowFile bd (p + i) = f then byteSum (rows i) else 0) := by
  induction n with
  | zero => rfl
  | succ n ih => rw [sumTo_succ, ← ih]; rfl

/-- The ranges together, if they contain every row once. -/
theorem rangesSum_total (bd : Block) (A : Content) (f size : Nat) (l : List (Nat × Nat)) (h : ∀ x ∈ l, x.1 + x.2 ≤ size)
    (h1 : ∀ row, row < size → timesIn row l = 1) : rangesSum bd A f l = rowsSum bd 0 (fun i => (A.rows i).getD []) f size := by
  have := ranges_total size (fun row => if rowFile bd row = f then byteSum ((A.rows row).getD []) else 0) l h
  rw [rowsSum_sumTo]
  unfold rangesSum
  simp only [rowsSum_sumTo]
  rw [this]
  refine sumTo_congr fun row hr => ?_
  rw [h1 row hr, Nat.one_mul, Nat.zero_add]

theorem rangesLen_le (size : Nat) (l : List (Nat × Nat)) (h : ∀ x ∈ l, x.1 + x.2 ≤ size)
    (h1 : ∀ row, timesIn row l ≤ 1) : rangesLen l ≤ size := by
  have := ranges_total size (fun _ => 1) l h
  have h2 : (l.map fun x => sumTo x.2 (fun _ => 1)) = l.map fun x => x.2 :=
    List.map_congr_left fun x _ => by rw [sumTo_const, Nat.mul_one]
  rw [h2] at this
  unfold rangesLen
  rw [this]
  have key : ∀ k, sumTo k (fun row => timesIn row l * 1) ≤ k := by
    intro k
    induction k with
    | zero => exact Nat.le_refl _
    | succ k ih =>
      rw [sumTo_succ]
      have := h1 k
      omega
  exact key size

/-- The sum over processes is the sum over all ranges. -/
theorem mine_total (bd : Block) (A : Content) (loc : Nat × Nat → Nat × Nat) (f n : Nat) (ts : List (Nat × Nat × Nat)) (h : ∀ p ∈ ts, p.1 < n) :
    sumTo n (fun r => rangesSum bd A f ((mine r ts).map loc)) = rangesSum bd A f (ts.map fun p => loc p.2) := by
  induction ts with
  | nil => exact sumTo_zero fun r _ => rfl
  | cons p ts ih =>
    obtain ⟨q, o, l⟩ := p
    have hq : q < n := h (q, o, l) (by simp)
    have e := sumTo_change (f := fun r => rangesSum bd A f ((mine r ((q, o, l) :: ts)).map loc))
      (g := fun r => rangesSum bd A f ((mine r ts).map loc)) hq (fun r hr => by rw [mine_cons, if_neg fun e => hr e.symm])
    rw [mine_cons, if_pos rfl, ih fun p hp => h p (by simp [hp]), List.map_cons] at e
    have h1 := rangesSum_append bd A f [loc (o, l)] ((mine q ts).map loc)
    have h2 := rangesSum_append bd A f [loc (o, l)] (ts.map fun p => loc p.2)
    rw [List.singleton_append] at h1 h2
    rw [List.map_cons]
    dsimp only
    omega

end Verif
