import Verif.Spec.BlocksSharedMay
import Verif.Proof.BlocksMay
import Verif.Proof.RecordsMay
import Verif.Proof.Gentle
/-!
# A file of several blocks, shared by several processes, with failures and kills
-/

set_option autoImplicit false

namespace Verif

open Spec

variable {env : Env} {K : Kind} {S : Durable} {w : World} {n : Nat} {bf name dt : CStr}

theorem Spec.Clear.renamed {a b : CStr} {fs : FS} (h : Clear fs a) (hr : resolve a = resolve b) : Clear fs b := by
  have hk : ∀ id, fileKey a id = fileKey b id := fun id => by rw [fileKey_eq, fileKey_eq, hr]
  exact ⟨fun d => by rw [← hr]; exact h.way d, by rw [← hk]; exact h.noOld, fun f => by rw [← hk]; exact h.data f⟩

theorem Gentle.renamed {α : Type} {a b : CStr} {m : M α} (h : Gentle a m) (hr : resolve a = resolve b) : Gentle b m := by
  intro w hc
  exact wlp_mono (h w (hc.renamed hr.symm)) (fun _ _ h => h.renamed hr) (fun _ h => h.renamed hr)

/-- Rank 0 leaves room for the data files, also if it is interrupted. -/
theorem createRoot_gentle (env : Env) (bf name : CStr) (dt : Option CStr) (nmemb : Int) (fsize : List Nat) (hbf : bf ≠ [])
    (hlen : (mpiPath bf name).length ≤ 8192) : Gentle (mpiPath bf name) (mpiCreateRoot env bf name dt nmemb fsize) := by
  have h1 := mksubdirR_gentle bf name
  rw [strdup_short (pathJoin_length (mpiPath_length hlen))] at h1
  have h2 := createInternal_gentle env (mpiPath bf name) dt nmemb fsize
  rw [strdup_short hlen] at h2
  unfold mpiCreateRoot
  refine Gentle.bind (h1.renamed (resolve_mpiPath bf name hbf).symm) fun rc => Gentle.ite (Gentle.pure _) (Gentle.bind h2 fun x => ?_)
  split
  · exact Gentle.pure _
  · exact Gentle.pure _

/-- What is known after all processes made a block, or tried. -/
structure MakeMay (env : Env) (n : Nat) (bf name dt : CStr) (nmemb : Nat) (sizes : List Nat) (w : World)
    (x : (Nat → Int) × Option (Nat → Block)) (w' : World) : Prop where
  faults : w'.faults = w.faults
  out : OnlyMade (pathJoin bf name) w.fs w'.fs
  clear : Clear w'.fs (pathJoin bf name)
  res : (AllMade n x.1 ∧ ∃ H, x.2 = some H ∧ (H 0).basename = mpiPath bf name ∧
      HoldsAllD env (sharedMade env.m dt nmemb sizes).1 n H w'.fs (sharedMade env.m dt nmemb sizes).2) ∨ NoneMade n x.1

/-- **A block is made by all processes while file operations fail.** -/
theorem commCreate_may {nmemb : Nat} {sizes : List Nat} (hfmt : FmtOk env) (hchunk : env.chunkBytes < 18446744073709551616)
    (hns : NoSilent w.faults) (hbf : bf ≠ []) (hn : 0 < n ∧ n < 2147483648) (hm : MakeableAll env bf name dt nmemb sizes)
    (hc : Clear w.fs (pathJoin bf name)) :
    (mpiCreateBlock env n bf name (some dt) nmemb sizes).Withstands w (MakeMay env n bf name dt nmemb sizes w)
      (fun fs => OnlyMade (pathJoin bf name) w.fs fs ∧ Clear fs (pathJoin bf name)) := by
  have hres := resolve_mpiPath bf name hbf
  have hlen := hm.length
  have hc' : Clear w.fs (mpiPath bf name) := hc.renamed hres.symm
  have hi := hm.item
  have hit : itemsize env.m dt = ((itemsize env.m dt).toNat : Int) := by omega
  unfold mpiCreateBlock
  apply Phases.withstands_bind
  apply Phases.withstands_alone
  refine wpc_mono (wpc_wlp (createRoot_may (env := env) (dt := dt) (nmemb := nmemb) (fsize := sizes) hbf hns hlen)
    (createRoot_gentle env bf name (some dt) nmemb sizes hbf hlen w hc')) ?_ (fun _ h => ⟨h.1.renamed hres, h.2.renamed hres⟩)
  rintro x w1 ⟨⟨f1, o1, (rfl | ⟨rfl, fs1, g1, g2, g3, g4⟩)⟩, c1⟩
  · exact Phases.withstands_pure ⟨f1, o1.renamed hres, c1.renamed hres, .inr ⟨-1, by decide, fun _ _ => rfl⟩⟩
  have hl : Layout (freshBlock env (mpiPath bf name) dt nmemb sizes) := freshBlock_layout hm.size
  have hwa : WellAttrs env.m (freshBlock env (mpiPath bf name) dt nmemb sizes).attrset :=
    ⟨[], (attrsetCreate_inv env).dirty false⟩
  have hbr : ∀ r, Mate env (freshBlock env (mpiPath bf name) dt nmemb sizes)
      (mpiBroadcast env (freshBlock env (mpiPath bf name) dt nmemb sizes) r) := fun r => mate_broadcast hl hm.noZero hlen hwa r
  have hcnt := hm.nfile
  apply Phases.withstands_bind
  apply Phases.withstands_together (P' := fun r => mpiTruncP n r (mpiPath bf name) 0 sizes.length none b!"cannot open")
  · intro r hr
    have e : (mpiBroadcast env (freshBlock env (mpiPath bf name) dt nmemb sizes) r).basename = mpiPath bf name := (hbr r).shape.base
    have e' : (mpiBroadcast env (freshBlock env (mpiPath bf name) dt nmemb sizes) r).nfile = sizes.length := (hbr r).shape.nfile
    rw [e, e']
  · intro F hF
    obtain ⟨B, hB⟩ := C43_truncate n (mpiPath bf name) 0 sizes.length (fun _ => none) (fun _ => b!"cannot open") w1.fs.node F
      hn.1 hn.2 (by omega) hF
    refine ⟨B, fun es s hr => ?_⟩
    obtain ⟨b1, _, _, hother, hst⟩ := hB es s hr
    have hkinds := fun k => run_kinds hr k
    have o2 : ∀ dom, OnlyMade (pathJoin bf name) w.fs ⟨s.nodes, dom⟩ := fun dom =>
      (o1.trans (OnlyMade.of_outside (fs' := ⟨s.nodes, dom⟩) fun k hk => hother k fun i _ => hk _)).renamed hres
    have c2 : ∀ dom, Clear ⟨s.nodes, dom⟩ (mpiPath bf name) := by
      intro dom
      refine ⟨fun d => ?_, ?_, fun f => (hkinds _).2 (c1.data f)⟩
      · show s.nodes _ ≠ _
        rw [hother _ (fun i _ he => by have := congrArg List.length he; rw [fileKey_eq] at this; simp at this)]
        exact c1.way d
      · show s.nodes _ = _
        rw [hother _ (fun i _ => fileKey_ne (by simp))]
        exact c1.noOld
    refine ⟨b1, fun dom => ⟨o2 dom, (c2 dom).renamed hres⟩, fun hs => ?_⟩
    obtain ⟨rc, hret, hdone, _⟩ := hst hs
    have hch : ∀ r, ∃ e, r < n → (s.thr r).prog = .ret (rc, e) := by
      intro r
      by_cases hr : r < n
      · obtain ⟨e, he⟩ := hret r hr
        exact ⟨e, fun _ => he⟩
      · exact ⟨none, fun hr' => absurd hr' hr⟩
    refine ⟨fun r => (rc, (hch r).choose), fun r hr => (hch r).choose_spec hr, fun out dom ho => ?_⟩
    apply Phases.withstands_pure
    have hout : ∀ r, r < n → (out r).1 = rc := fun r hr => by rw [ho r hr]
    refine ⟨f1, o2 dom, (c2 dom).renamed hres, ?_⟩
    by_cases hrc : rc = 0
    · refine .inl ⟨fun r hr => (hout r hr).trans hrc, _, rfl, rfl, ?_⟩
      have hfd : fs1.node (resolve (mpiPath bf name)) = some .dir := by
        rcases g3 (resolve (mpiPath bf name)) with h | ⟨_, h⟩
        · cases h' : fs1.node (resolve (mpiPath bf name)) with
          | none => rw [h'] at g2; cases g2
          | some nd =>
            cases nd with
            | dir => rfl
            | file d =>
              rw [h'] at h
              exact absurd h.symm (hc'.way d)
        · exact h
      have h0 := created_holds (wd := (itemsize env.m dt).toNat) (nm := nmemb) (nmemb := nmemb) (fsize := sizes) hfmt hlen
        (isMeta_mpiPath bf name) hm.dtype (by rw [itemsize_normalize]; exact hit) (by omega) rfl hm.memb hm.rowBytes hm.buffer hchunk hm.nfile hm.size
        hm.bytes rfl hfd (by rw [g4]; exact hc'.noOld) (fun i => by rw [g4]; exact hc'.data i)
      rw [normalize_idem] at h0
      have h1 : Holds env (sharedMade env.m dt nmemb sizes).1 (freshBlock env (mpiPath bf name) dt nmemb sizes) ⟨s.nodes, dom⟩ (Content.fresh sizes) := by
        have hsame : ∀ k, s.nodes k = (createFS env (mpiPath bf name) dt nmemb sizes fs1).node k := by
          intro k
          unfold createFS
          rw [← g1]
          by_cases hk : ∃ i, i < sizes.length ∧ k = fileKey (mpiPath bf name) (.data i)
          · obtain ⟨i, hi, rfl⟩ := hk
            rw [truncFS_data _ _ _ _ i (Nat.zero_le _) (by omega)]
            have := (hdone hrc).1 i hi
            rwa [Nat.zero_add] at this
          · rw [truncFS_other _ _ _ _ _ (fun i _ h2 he => hk ⟨i, by omega, he⟩)]
            exact hother k fun i hi he => hk ⟨i, hi, by rw [he, Nat.zero_add]⟩
        exact h0.congr (hsame _) (fun id => hsame _)
      exact opened_holdsAllD (n := n) (opened_holdsD h1 rfl rfl) rfl hm.noZero hn
    · exact .inr ⟨rc, hrc, hout⟩

end Verif
