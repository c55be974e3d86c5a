import Verif.Proof.SampleMay
import Verif.Props.Sample
/-!
# C64: sampling while file operations fail
-/

set_option autoImplicit false

namespace Verif

open Spec

/-- What a handle shows, seen as the state of a session: a changed header file is not known. -/
theorem Spec.Holds.durable {env : Env} {K : Kind} {b : Block} {fs : FS} {A : Content} (h : Holds env K b fs A) :
    HoldsD env K b fs ⟨A, if b.dirty then none else some (A.size, A.nfile), !A.pending, true⟩ := by
  refine ⟨h.ok, h.kind, h.size, h.nfile, h.savable, h.attrs, h.pending, ⟨h.tame.1, fun hp => h.tame.2 (by simpa using hp)⟩,
    fun hp => h.saved (by simpa using hp), fun hd => ⟨by rw [hd]; rfl, h.header hd⟩, ?_, h.dir, h.noOld, h.noDirs, fun _ => h.data, h.rows⟩
  intro n k hs
  cases hd : b.dirty with
  | true => rw [hd] at hs; cases hs
  | false =>
    rw [hd] at hs
    exact headerSays_stored (bb := b) (bb' := b) ⟨rfl, rfl, rfl, rfl, rfl, rfl, rfl⟩ rfl h.ok.layout (h.header hd) n k
      (by rw [h.size, h.nfile]; exact hs)

theorem Spec.HoldsD.shown {env : Env} {K : Kind} {b : Block} {fs : FS} {S : Durable} (h : HoldsD env K b fs S)
    (hk : S.now.pending = false → S.attrsKnown = true) (hw : S.whole = true) : Holds env K b fs S.now :=
  ⟨h.ok, h.kind, h.size, h.nfile, h.savable, h.attrs, h.pending, ⟨h.tame.1, fun hp => h.tame.2 (hk hp)⟩, fun hp => h.saved (hk hp),
    fun hd => (h.clean hd).2, h.dir, h.noOld, h.noDirs, h.data hw, h.rows⟩

/-- **C64, failures** (partial: as `C64_sample_partial`). Whatever file operations fail, the workers end, and if they report success the new
block holds a sample of the source, complete and in order. In any case, also when the program is killed, the source is as it was, and
nothing but the files of the new block has changed. -/
theorem C64_faults_partial (env : Env) (K : Kind) (A B : Content) (bb bn : Block) (w : World) (g : Rng) (all : Bool)
    (draw : Nat → Nat → Nat → Nat) (hdr : ∀ seed, FairDraw (draw seed)) (ws : List Work) (buf abuf : Int) (mem : Mem)
    (hs : Holds env K bb w.fs A) (hd : Holds env K bn w.fs B) (hap : Apart bb.basename bn.basename)
    (hfull : A.full) (hB : B.size = sampleSize g all A.size) (hws : ws.Perm (sampleWork g all A.size))
    (hn : ∀ wk ∈ ws, wk.nsel ≤ wk.chunksize)
    (hbuf : buf + ((sampleChunkRows * (K.nm * K.w) : Nat) : Int) ≤ abuf ∨ abuf + ((sampleChunkRows * (K.nm * K.w) : Nat) : Int) ≤ buf) :
    wpc (sampleRun env bb draw buf abuf ws bn mem) w
      (fun r w' => SameOutside bn.basename w.fs w'.fs ∧ Holds env K bb w'.fs A ∧ (r.1 = .failed ∨ r.1 = .done ∧
        ∃ B' sel, Holds env K r.2.1 w'.fs B' ∧ B'.size = B.size ∧ B'.nfile = B.nfile ∧ B'.attrs = B.attrs ∧
          Choice sel B.size A.size ∧ (List.range B.size).map B'.rows = sel.map A.rows))
      (fun w' => SameOutside bn.basename w.fs w'.fs ∧ Holds env K bb w'.fs A) := by
  have hf := sampleWork_from g all A.size
  have hmem : ∀ wk, wk ∈ ws ↔ wk ∈ sampleWork g all A.size := fun wk => hws.mem_iff
  have hbnd := hf.bounds.2.2
  obtain ⟨q1, q2, q3⟩ := worked_shape (A := A) (B := B) draw ws
  obtain ⟨sel, c1, c2⟩ := sample_rows A B g all draw hdr ws hB hws hn
  have hpend : (ws.foldl (A.worked draw) B).pending = B.pending := by
    have key : ∀ (ws : List Work) (B : Content), (ws.foldl (A.worked draw) B).pending = B.pending := by
      intro ws
      induction ws with
      | nil => exact fun _ => rfl
      | cons wk ws ih => intro B; rw [List.foldl_cons, ih]; rfl
    exact key ws B
  refine wpc_mono (sampleRun_may hap hfull draw hdr buf abuf ws bn _ mem w hs hd.durable rfl ?_) ?_ ?_
  · intro wk hwk
    have h1 := hbnd wk ((hmem wk).mp hwk)
    have h2 := hn wk hwk
    have h3 : wk.nsel * (K.nm * K.w) ≤ sampleChunkRows * (K.nm * K.w) := Nat.mul_le_mul_right _ (by omega)
    have h4 : wk.chunksize * (K.nm * K.w) ≤ sampleChunkRows * (K.nm * K.w) := Nat.mul_le_mul_right _ (by omega)
    refine ⟨by omega, h2, by show _ ≤ B.size; rw [hB]; omega, by omega⟩
  · rintro ⟨e, b', m'⟩ w' ⟨_, o, c, _, d⟩
    refine ⟨o, hs.outside hap o, ?_⟩
    rcases c with c | c
    · exact Or.inr ⟨c, _, sel, (d c).shown (fun hp => by
        have hp : (ws.foldl (A.worked draw) B).pending = false := hp
        show (!B.pending) = true
        rw [← hpend, hp]
        rfl) rfl, q1, q2, q3, c1, c2⟩
    · exact Or.inl c
  · exact fun w' o => ⟨o, hs.outside hap o⟩

/-- The example: three of the five rows, into a new block of two files, with any failures. -/
example (faults : Nat → Fault) : ∃ w bb w1 bn w2, exCopySrc exTreeWorld = .ok 0 w ∧ blockOpen exEnv b!"d/z" w = .ok (0, some bb) w1 ∧
    createBlock exEnv b!"d" b!"y" (some b!"i4") 1 [1, 2] w1 = .ok (0, some bn) w2 ∧
    wpc (sampleRun exEnv bb exDraw 100000000 500 (sampleWork (exRng 3) false 5) bn exMem) { w2 with faults := faults }
      (fun r w' => Holds exEnv exKind bb w'.fs exCopyA ∧ (r.1 = .failed ∨ r.1 = .done ∧
        ∃ B' sel, Holds exEnv exKind r.2.1 w'.fs B' ∧ Choice sel 3 5 ∧ (List.range 3).map B'.rows = sel.map exCopyA.rows))
      (fun w' => Holds exEnv exKind bb w'.fs exCopyA) := by
  obtain ⟨w, bb, w1, bn, w2, e, e1, e2, hb, hbn, nf, h1, h2⟩ := exSample_ready
  refine ⟨w, bb, w1, bn, w2, e, e1, e2, wpc_mono (C64_faults_partial exEnv exKind exCopyA (Content.fresh [1, 2]) bb bn { w2 with faults := faults }
    (exRng 3) false exDraw exDraw_fair (sampleWork (exRng 3) false 5) 100000000 500 exMem h1 h2
    (by rw [hb, hbn]; exact exSample_apart) (fun r hr => exCopyA_full r (exSampleA_size ▸ hr)) (by rw [exSampleA_size, exSample_size]; decide)
    (by rw [exSampleA_size]) (by rw [exSample_work]; intro wk hwk; simp at hwk; subst hwk; decide) (by decide)) ?_ ?_⟩
  · rintro r w' ⟨_, k1, k2⟩
    refine ⟨k1, ?_⟩
    rcases k2 with k | ⟨k, B', sel, k3, _, _, _, k4, k5⟩
    · exact Or.inl k
    · rw [exSampleA_size] at k4
      exact Or.inr ⟨k, B', sel, k3, k4, k5⟩
  · exact fun w' k => k.2

end Verif
