import Verif.Spec.MixedLife
import Verif.Proof.MixedLife
/-!
# C109: the life of a file of many blocks that is used by single processes and by groups of processes
-/

set_option autoImplicit false

namespace Verif

open Verif.Spec

/-! ## What one kind of visitor leaves, the other finds -/

/-- A file as a single process finds it is also a file as a group of processes finds it. -/
theorem fileAtRest_comm {env : Env} {bf : CStr} {N : CStr → Prop} {fs : FS} {D : DBlocks} (hbf : bf ≠ []) (hN : ∀ m, N m → Handy bf m)
    (h : FileAtRest env bf N fs D) : CommAtRest env bf N fs D := by
  refine ⟨h.names, fun m K S hD => ?_⟩
  obtain ⟨hm, b, hb, hh⟩ := h.blocks m K S hD
  have hy := hN m hm
  exact ⟨hm, _, rfl, hy.noZero, hh.renamed (base := mpiPath bf m) (by rw [hb, resolve_mpiPath bf m hbf]) hy.length (isMeta_mpiPath bf m)⟩

/-- And the other way round. -/
theorem commAtRest_file {env : Env} {bf : CStr} {N : CStr → Prop} {fs : FS} {D : DBlocks} (hbf : bf ≠ []) (hN : ∀ m, N m → Handy bf m)
    (ht : TreeOk fs) (h : CommAtRest env bf N fs D) : FileAtRest env bf N fs D := by
  refine ⟨ht, h.names, fun m K S hD => ?_⟩
  obtain ⟨hm, b, hb, _, hh⟩ := h.blocks m K S hD
  have hy := hN m hm
  exact ⟨hm, _, rfl, hh.renamed (base := pathJoin bf m) (by rw [hb, resolve_mpiPath bf m hbf]) (mpiPath_length hy.length) hy.notMeta⟩

/-- **C109, the blocks can be opened** by a process and by any number of processes, and they find the same (partial, as below). -/
theorem C109_opens_partial (env : Env) (bf : CStr) (N : CStr → Prop) (hbf : bf ≠ []) (hN : ∀ m, N m → Handy bf m) (fs : FS) (D : DBlocks)
    (h : FileAtRest env bf N fs D) (name : CStr) (K : Kind) (S : Durable) (hD : D name = some (K, S)) (hi : S.Intact) (c : Nat) :
    (∃ b w', openBlock env bf name ⟨fs, noFaults, c⟩ = .ok (0, some b) w' ∧ w'.fs = fs ∧ HoldsD env K b fs S.again) ∧
    (∃ H w', mpiOpenBlock env bf name ⟨fs, noFaults, c⟩ = .ok (0, some H) w' ∧ w'.fs = fs ∧
      ∀ n, 0 < n ∧ n < 2147483648 → HoldsAllD env K n H fs S.again) := by
  obtain ⟨b, w', e, g1, _, g2⟩ := C107_opens_partial env bf N fs D h name K S hD hi c
  obtain ⟨H, w2, e2, g3, _, g4⟩ := C108_opens_partial env bf N fs D (fileAtRest_comm hbf hN h) name K S hD hi c
  exact ⟨⟨b, w', e, g1, g2⟩, H, w2, e2, g3, g4⟩

/-- **C109, one visit** (partial, as below). -/
theorem C109_visit_partial (env : Env) (bf : CStr) (N : CStr → Prop) (hfmt : FmtOk env) (hchunk : env.chunkBytes < 18446744073709551616)
    (hbf : bf ≠ []) (hN : ∀ m, N m → Handy bf m) (fs fs' : FS) (D : DBlocks) (h : FileAtRest env bf N fs D) (v : MixedVisit) (e : MixedEnd)
    (ho : ∀ m, v.opens m = true → ∃ K S, D m = some (K, S) ∧ S.Intact) (hp : v.Safe env bf N ((D.reopen v.opens).only v.opens))
    (hv : MixedVisitLeft env bf fs fs' v e) : ∃ D', MixedLeads env (D.reopen v.opens) D' v e ∧ FileAtRest env bf N fs' D' := by
  cases hv with
  | alone opens p e hv =>
    obtain ⟨D', g1, g2⟩ := C107_visit_partial env bf N hfmt hchunk hbf fs fs' D h opens p e ho hp hv
    exact ⟨D', .alone opens p e g1, g2⟩
  | group n opens p e hv =>
    obtain ⟨D', g1, g2⟩ := C108_visit_partial env bf N hfmt hchunk hbf fs fs' D (fileAtRest_comm hbf hN h) n hp.1 opens p e ho hp.2 hv
    refine ⟨D', .group n opens p e g1, commAtRest_file hbf hN ?_ g2⟩
    obtain ⟨hs, faults, clock, _, _, _, hend⟩ := hv
    rcases hend with ⟨xs, hs', _, hr⟩ | ⟨_, hr⟩
    · exact Phases.TreeSafe.ends hr (runCommNoted_treeSafe env n bf p hs) h.tree
    · exact Phases.TreeSafe.ends hr (runCommNoted_treeSafe env n bf p hs) h.tree

/-! ## Any number of visits -/

/-- **C109** (partial: nothing fails while blocks are opened, file operations do not fail silently, one visitor at a time). Blocks in a
file; single processes and groups of processes, in any order and any number of times, open some of the blocks, make more and use them
while any file operation of any process may fail, in every interleaving, and come to their end or are killed at any moment; what the next
visitor does may depend on how the earlier ones ended. Then the files of all blocks are in a state to which the operations on each block,
with the answers they gave, may lead. -/
theorem C109_life_partial (env : Env) (bf : CStr) (N : CStr → Prop) (hfmt : FmtOk env) (hchunk : env.chunkBytes < 18446744073709551616)
    (hbf : bf ≠ []) (hN : ∀ m, N m → Handy bf m) (L : MixedLife) (es : List MixedEnd) (fs fs' : FS) (hd : MixedDiskLife env bf fs L es fs') :
    ∀ (D : DBlocks), FileAtRest env bf N fs D → L.Safe env bf N D → ∃ D', MixedLifeLeads env D L es D' ∧ FileAtRest env bf N fs' D' := by
  induction hd with
  | rest fs => intro D h _; exact ⟨D, .rest D, h⟩
  | visit fs fs1 fs' v next e es hv _ ih =>
    intro D h hs
    obtain ⟨s1, s2, s3⟩ := hs
    obtain ⟨D1, g1, g2⟩ := C109_visit_partial env bf N hfmt hchunk hbf hN fs fs1 D h v e s1 s2 hv
    obtain ⟨D', g3, g4⟩ := ih D1 g2 (s3 e D1 g1)
    exact ⟨D', .visit D D1 D' v next e es s1 g1 g3, g4⟩

/-! ## Consequences for a user -/

/-- What a visit may leave of one block, if it does only operations `P` and `Q` to it. -/
theorem mixedLeads_one {env : Env} {name : CStr} {K : Kind} {P : BOp → Prop} {Q : Nat → MOp → Prop} {R : Durable → Durable → Prop} (hr : ∀ S, R S S)
    (ht : ∀ S S1 S2, R S S1 → R S1 S2 → R S S2)
    (hone : ∀ S S1 op, P op → Leaves env K S (.call op fun _ => .stop) S1 → R S S1)
    (hall : ∀ n S S1 op, Q n op → LeavesAll env K n S (.call op fun _ => .stop) S1 → R S S1) {D D' : DBlocks} {v : MixedVisit} {e : MixedEnd}
    (h : MixedLeads env D D' v e) (hv : v.OnlyDoes name P Q) (S : Durable) (hS : D name = some (K, S)) : ∃ S', D' name = some (K, S') ∧ R S S' := by
  cases h with
  | alone opens p e hl => exact leaves_one hr ht hone (FileLeads.leaves hl) hv S hS
  | group n opens p e hl => exact commLeaves_one hr ht (hall n) (CommLeads.leaves hl) hv S hS

/-- **C109, rows stay.** A row that is stored and that no visitor writes keeps its content, and remains within what is recorded,
whatever happens to other rows and other blocks, whatever fails and whenever processes are killed. -/
theorem C109_row_stays (env : Env) (name : CStr) (K : Kind) (q : Nat) (L : MixedLife) (es : List MixedEnd) (D D' : DBlocks)
    (h : MixedLifeLeads env D L es D') : L.OnlyDoes name (SparesRow K q) (SparesRowAll K q) → ∀ S, D name = some (K, S) → RowIn q S →
    ∃ S', D' name = some (K, S') ∧ RowIn q S' ∧ S'.now.rows q = S.now.rows q := by
  induction h with
  | rest D => intro _ S hS hq; exact ⟨S, hS, hq, rfl⟩
  | visit D D1 D' v next e es ho hl _ ih =>
    intro hL S hS hq
    have h0 := reopen_some (opens := v.opens) hS
    have hq0 : RowIn q (if v.opens name then S.again else S) ∧ (if v.opens name then S.again else S).now.rows q = S.now.rows q := by
      split
      · exact RowIn.again hq
      · exact ⟨hq, rfl⟩
    obtain ⟨S1, g1, g2⟩ := mixedLeads_one (R := fun S S' => RowIn q S → RowIn q S' ∧ S'.now.rows q = S.now.rows q) (fun S hS => ⟨hS, rfl⟩)
      (fun S S1 S2 h1 h2 hS => ⟨(h2 (h1 hS).1).1, (h2 (h1 hS).1).2.trans (h1 hS).2⟩)
      (by
        intro S S1 op hop hlv hS
        refine ⟨RowIn.leaves hS hlv, C70_untouched env K q S S1 _ hlv ⟨?_, fun _ => trivial⟩⟩
        cases op <;> exact hop)
      (by
        intro n S S1 op hop hlv hS
        refine ⟨RowIn.leavesAll hS hlv, C89_untouched env K n q S S1 _ hlv ⟨?_, fun _ => trivial⟩⟩
        cases op <;> exact hop) hl hL.1 _ h0
    obtain ⟨g3, g4⟩ := g2 hq0.1
    obtain ⟨S', k1, k2, k3⟩ := ih (hL.2 e) S1 g1 g3
    exact ⟨S', k1, k2, k3.trans (g4.trans hq0.2)⟩

/-- **C109, a block that is left alone.** A stored block that no visitor uses or makes (they may open it) is the same afterwards: same
size, same rows, same attributes. -/
theorem C109_ignored (env : Env) (name : CStr) (L : MixedLife) (es : List MixedEnd) (D D' : DBlocks)
    (h : MixedLifeLeads env D L es D') : L.OnlyDoes name (fun _ => False) (fun _ _ => False) → ∀ K S, D name = some (K, S) → S.Intact →
    ∃ S', D' name = some (K, S') ∧ S'.Intact ∧ S'.again = S.again := by
  induction h with
  | rest D => intro _ K S hS hi; exact ⟨S, hS, hi, rfl⟩
  | visit D D1 D' v next e es ho hl _ ih =>
    intro hL K S hS hi
    have h0 := reopen_some (opens := v.opens) hS
    have hq0 : (if v.opens name then S.again else S).Intact ∧ (if v.opens name then S.again else S).again = S.again := by
      split
      · exact ⟨hi.again, again_again S⟩
      · exact ⟨hi, rfl⟩
    obtain ⟨S1, g1, g2⟩ := mixedLeads_one (R := fun S S' => S' = S) (fun S => rfl) (fun S S1 S2 h1 h2 => h2.trans h1)
      (fun S S1 op hop _ => hop.elim) (fun n S S1 op hop _ => hop.elim) hl hL.1 _ h0
    subst g2
    obtain ⟨S', k1, k2, k3⟩ := ih (hL.2 e) K _ g1 hq0.1
    exact ⟨S', k1, k2, k3.trans hq0.2⟩

/-- **C109, what cannot do damage.** A block that can be opened can be opened afterwards if every visitor either does not make or
flush this block (it may then fail and be killed as it likes, also while it makes or flushes other blocks), or came to its end and one
of its processes saw no error code. -/
theorem C109_intact (env : Env) (name : CStr) (L : MixedLife) (es : List MixedEnd) (D D' : DBlocks)
    (h : MixedLifeLeads env D L es D') : L.SoundFor name es → (∃ K S, D name = some (K, S) ∧ S.Intact) →
    ∃ K S, D' name = some (K, S) ∧ S.Intact := by
  induction h with
  | rest D => intro _ hi; exact hi
  | visit D D1 D' v next e es ho hl _ ih =>
    intro hL hi
    obtain ⟨K, S, hS, hi⟩ := hi
    have h0 := reopen_some (opens := v.opens) hS
    have hi0 : (if v.opens name then S.again else S).Intact := by
      split
      · exact hi.again
      · exact hi
    refine ih hL.2 ?_
    rcases hL.1 with hnf | hw
    · obtain ⟨S1, g1, g2⟩ := mixedLeads_one (R := fun S S' => S.Intact → S'.Intact) (fun S h => h) (fun S S1 S2 h1 h2 h => h2 (h1 h))
        (by
          intro S S1 op hop hlv hS
          obtain ⟨u1, u2, _⟩ := C70_unflushed env K S S1 _ hlv ⟨by cases op <;> exact hop, fun _ => trivial⟩
          exact ⟨by rw [u1]; exact hS.1, by rw [u2]; exact hS.2⟩)
        (by
          intro n S S1 op hop hlv hS
          obtain ⟨u1, u2, _⟩ := C89_unflushed env K n S S1 _ hlv ⟨by cases op <;> exact hop, fun _ => trivial⟩
          exact ⟨by rw [u1]; exact hS.1, by rw [u2]; exact hS.2⟩) hl hnf _ h0
      exact ⟨K, S1, g1, g2 hi0⟩
    · cases hl with
      | alone opens p e hl =>
        cases e with
        | killed => exact hw.elim
        | ended xs => exact fileAsIf_intact name p (C102_no_false_success env _ D1 p xs hl hw) ⟨_, _, h0, hi0⟩
      | group n opens p e hl =>
        cases e with
        | killed => exact hw.elim
        | ended xs =>
          obtain ⟨r, hr, hne⟩ := hw
          exact commAsIf_intact name p (C104_no_false_success env n r hr _ D1 p xs hl hne) ⟨_, _, h0, hi0⟩

/-- **C109, a user's data** (partial, as above). A block of the file holds `A`. Single processes and groups of processes work on the file,
any number of times; each visitor either does not make or flush this block (and may be killed at any moment), or comes to its end and
one of its processes sees no error code. Then a process can open the block, and so can any number of processes, and each of them finds
every row that was there at the beginning and that no visitor wrote as it was (if none of them made the block anew). -/
theorem C109_kept_partial (env : Env) (bf : CStr) (N : CStr → Prop) (hfmt : FmtOk env) (hchunk : env.chunkBytes < 18446744073709551616)
    (hbf : bf ≠ []) (hN : ∀ m, N m → Handy bf m) (L : MixedLife) (es : List MixedEnd) (fs fs' : FS)
    (hd : MixedDiskLife env bf fs L es fs') (D : DBlocks) (h : FileAtRest env bf N fs D) (hs : L.Safe env bf N D)
    (name : CStr) (K : Kind) (A : Content) (hD : D name = some (K, Durable.opened A)) (hv : L.SoundFor name es) (c : Nat) :
    ∃ b w1 H w2, openBlock env bf name ⟨fs', noFaults, c⟩ = .ok (0, some b) w1 ∧ mpiOpenBlock env bf name ⟨fs', noFaults, c⟩ = .ok (0, some H) w2 ∧
      ∀ q bytes, A.rows q = some bytes → L.OnlyDoes name (SparesRow K q) (SparesRowAll K q) →
        (q < b.size ∧ row env.m fs' b q = bytes) ∧ ∀ r, r < 2147483647 → q < (H r).size ∧ row env.m fs' (H r) q = bytes := by
  obtain ⟨D', g1, g2⟩ := C109_life_partial env bf N hfmt hchunk hbf hN L es fs fs' hd D h hs
  obtain ⟨K', S', g3, g4⟩ := C109_intact env name L es D D' g1 hv ⟨K, _, hD, rfl, rfl⟩
  obtain ⟨⟨b, w1, e1, _, g5⟩, H, w2, e2, _, g6⟩ := C109_opens_partial env bf N hbf hN fs' D' g2 name K' S' g3 g4 c
  refine ⟨b, w1, H, w2, e1, e2, fun q bytes hr hsp => ?_⟩
  obtain ⟨_, b0, _, hb0⟩ := h.blocks name K _ hD
  have hlt := (hb0.rows q bytes hr).1
  have hin : RowIn q (Durable.opened A) := by
    refine ⟨hlt, fun m' k' e => ?_⟩
    injection e with e
    injection e with e _
    rw [← e]
    exact hlt
  obtain ⟨S2, k1, k2, k3⟩ := C109_row_stays env name K q L es D D' g1 hsp _ hD hin
  rw [g3] at k1
  injection k1 with k1
  injection k1 with e1 e2
  subst e1 e2
  have ha := RowIn.again k2
  have hrow : S'.again.now.rows q = some bytes := by
    rw [ha.2, k3]
    exact hr
  refine ⟨⟨by rw [g5.size]; exact ha.1.1, (g5.rows q bytes hrow).2.1⟩, fun r hrn => ?_⟩
  obtain ⟨_, _, bb, hh, _, _, _, hm⟩ := g6 2147483647 (by decide)
  have m := (hm r hrn).shape
  refine ⟨by rw [m.size, hh.size]; exact ha.1.1, ?_⟩
  rw [m.row]
  exact (hh.rows q bytes hrow).2.1

/-- **C109, visits happen** (partial, as above): there is an execution of every visit, and it leaves a disk behind. -/
theorem C109_happens_partial (env : Env) (bf : CStr) (N : CStr → Prop) (hfmt : FmtOk env) (hchunk : env.chunkBytes < 18446744073709551616)
    (hbf : bf ≠ []) (hN : ∀ m, N m → Handy bf m) (L : MixedLife) : ∀ (fs : FS) (D : DBlocks),
    FileAtRest env bf N fs D → L.Safe env bf N D → ∃ es fs', MixedDiskLife env bf fs L es fs' := by
  induction L with
  | rest => intro fs D _ _; exact ⟨[], fs, .rest fs⟩
  | visit v next ih =>
    intro fs D h hs
    obtain ⟨s1, s2, s3⟩ := hs
    have hv : ∃ e fs1, MixedVisitLeft env bf fs fs1 v e := by
      cases v with
      | alone opens p =>
        obtain ⟨es, fs1, hd⟩ := C107_happens_partial env bf N hfmt hchunk hbf (.visit opens p fun _ => .rest) fs D h ⟨s1, s2, fun _ _ _ => trivial⟩
        cases hd with
        | visit _ fs2 _ _ _ _ e _ hv _ => exact ⟨e.mixed, fs2, .alone opens p e hv⟩
      | group n opens p =>
        obtain ⟨es, fs1, hd⟩ := C108_happens_partial env bf N hfmt hchunk hbf (.visit n opens p fun _ => .rest) fs D (fileAtRest_comm hbf hN h)
          ⟨s2.1, s1, s2.2, fun _ _ _ => trivial⟩
        cases hd with
        | visit _ fs2 _ _ _ _ _ e _ hv _ => exact ⟨e.mixed, fs2, .group n opens p e hv⟩
    obtain ⟨e, fs1, hv⟩ := hv
    obtain ⟨D1, g1, g2⟩ := C109_visit_partial env bf N hfmt hchunk hbf hN fs fs1 D h v e s1 s2 hv
    obtain ⟨es, fs', g3⟩ := ih e fs1 D1 g2 (s3 e D1 g1)
    exact ⟨e :: es, fs', .visit fs fs1 fs' v next e es hv g3⟩

/-- **C109, a file that was made new**: an empty directory is a file at rest without blocks, in which blocks with plain names that are not too
long can be made. -/
theorem C109_new_file (env : Env) (bf : CStr) (hbf : bf ≠ []) (fs : FS) (ht : TreeOk fs) (he : EmptyDir fs bf) :
    FileAtRest env bf (fun n => PlainBlockName n ∧ Handy bf n) fs fun _ => none := by
  have h := C107_new_file env bf hbf fs ht he
  exact ⟨ht, ⟨fun n n' h1 h2 hne => h.names.apart n n' h1.1 h2.1 hne, fun n hn => h.names.clear n hn.1⟩, fun n K S h => by cases h⟩

/-! ### The example -/

/-- The names that a program uses can be narrowed to those of the blocks it makes. -/
theorem commSafe_names {env : Env} {n : Nat} {bf : CStr} {N N' : CStr → Prop}
    (hN : ∀ m dt nmemb sizes, N m → MakeableAll env bf m dt nmemb sizes → N' m) (p : CommSession) :
    ∀ D, p.Safe env n bf N D → p.Safe env n bf N' D := by
  induction p with
  | stop => intro D _; trivial
  | create name dt nmemb sizes k ih =>
    intro D h
    obtain ⟨h1, h2, h3⟩ := h
    exact ⟨hN _ _ _ _ h1 h2, h2, fun c => ⟨fun ha => ih c _ ((h3 c).1 ha), fun ha => ih c _ ((h3 c).2 ha)⟩⟩
  | use name op k ih =>
    intro D h
    obtain ⟨K, S, h1, h2, h3⟩ := h
    exact ⟨K, S, h1, h2, fun x S' ho => ih x _ (h3 x S' ho)⟩

/-- Three processes make `a` and `b/c` and write to `a`; if they come to their end and have made `b/c`, a single process opens `b/c`, writes
rows 1 to 3 and stops. -/
def exMixedLife : MixedLife :=
  .visit (.group 3 (fun _ => false) exCommSession) fun e => match e with
    | .all (_ :: .made c :: _) => if c 0 = 0 then
        .visit (.alone (fun m => m == b!"b/c") (.use b!"b/c" (.write 1 exSrc exMem 8) fun _ => .stop)) fun _ => .rest else .rest
    | _ => .rest

theorem exMixedLife_safe : exMixedLife.Safe exEnv b!"d/e" (fun n => PlainBlockName n ∧ Handy b!"d/e" n) fun _ => none := by
  have h0 : (DBlocks.reopen (fun _ => none) fun _ => false).only (fun _ => false) = fun _ => none := rfl
  refine ⟨fun n h => (by cases h), ⟨by decide, ?_⟩, fun e D1 hl => ?_⟩
  · show exCommSession.Safe exEnv 3 b!"d/e" _ ((DBlocks.reopen (fun _ => none) fun _ => false).only fun _ => false)
    rw [h0]
    exact commSafe_names (fun m _ _ _ h hm => ⟨h, hm.length, hm.noZero, hm.notMeta⟩) _ _ exCommSession_safe
  dsimp only
  split
  · rename_i a c xs
    split
    · rename_i hc0
      have hi : ∀ c', CommSession.Ignores b!"b/c" (if (c' : Nat → Int) 0 = 0 then
          .use b!"a" (.write 0 exArrs (fun _ => exMem) (fun _ => 8) 2 1) fun _ => .use b!"a" .flush fun _ => .stop else .stop) := by
        intro c'
        split
        · exact ⟨by decide, fun _ => ⟨by decide, fun _ => trivial⟩⟩
        · trivial
      have ha : D1 b!"b/c" = some (sharedMade exEnv.m b!"i4" 1 [2, 0, 3]) := by
        have hl : CommWent exEnv 3 (DBlocks.reopen (fun _ => none) fun _ => false) exCommSession (a :: .made c :: xs) D1 := by
          generalize he : MixedEnd.all (a :: .made c :: xs) = e at hl
          cases hl with
          | group _ _ _ e hl =>
            cases e with
            | killed => cases he
            | ended ys =>
              injection he with he
              subst he
              exact hl
        have key : ∀ D c', CommWent exEnv 3 D (.create b!"b/c" b!"i4" 1 [2, 0, 3] fun _ => if (c' : Nat → Int) 0 = 0 then
            .use b!"a" (.write 0 exArrs (fun _ => exMem) (fun _ => 8) 2 1) fun _ => .use b!"a" .flush fun _ => .stop else .stop)
            (.made c :: xs) D1 → D1 b!"b/c" = some (sharedMade exEnv.m b!"i4" 1 [2, 0, 3]) := by
          intro D c' hl
          cases hl with
          | made _ _ _ _ _ _ _ _ _ _ hl =>
            rw [C104_ignored exEnv 3 b!"b/c" _ _ _ (CommWent.leaves hl) (hi c')]
            exact put_self _ _ _
          | notMade _ _ _ _ _ _ _ _ _ hn _ =>
            obtain ⟨e, he, hx⟩ := hn
            exact absurd ((hx 0 (by decide)).symm.trans hc0) he
        cases hl with
        | made _ _ _ _ _ _ _ c' _ _ hl => exact key _ c' hl
        | notMade _ _ _ _ _ _ _ c' _ _ hl => exact key _ c' hl
      refine ⟨fun n h => ?_, ?_, fun _ _ _ => trivial⟩
      · have : n = b!"b/c" := by simpa [MixedVisit.opens] using h
        subst this
        exact ⟨_, _, ha, rfl, rfl⟩
      · refine ⟨(sharedMade exEnv.m b!"i4" 1 [2, 0, 3]).1, (sharedMade exEnv.m b!"i4" 1 [2, 0, 3]).2.again, ?_, ?_, fun _ _ _ => trivial⟩
        · show D1.reopen _ b!"b/c" = _
          exact reopen_some ha
        · exact ⟨by decide, exSrc_array, fun h => absurd h (by decide), fun _ => by decide +kernel⟩
    · trivial
  · trivial

/-- With any failures and kills. -/
example : (∃ es fs', MixedDiskLife exEnv b!"d/e" exTreeWorld.fs exMixedLife es fs') ∧
    ∀ es fs', MixedDiskLife exEnv b!"d/e" exTreeWorld.fs exMixedLife es fs' →
      ∃ D', MixedLifeLeads exEnv (fun _ => none) exMixedLife es D' ∧
        FileAtRest exEnv b!"d/e" (fun n => PlainBlockName n ∧ Handy b!"d/e" n) fs' D' := by
  have h := C109_new_file exEnv b!"d/e" (by decide) exTreeWorld.fs exTree_ok exBlkTree_empty
  exact ⟨C109_happens_partial exEnv b!"d/e" _ exFmt (by decide) (by decide) (fun _ h => h.2) exMixedLife _ _ h exMixedLife_safe,
    fun es fs' hd => C109_life_partial exEnv b!"d/e" _ exFmt (by decide) (by decide) (fun _ h => h.2) exMixedLife es _ fs' hd _ h exMixedLife_safe⟩

end Verif
