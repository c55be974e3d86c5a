import Verif.Proof.Yields
import Verif.Props.CopyHoles
import Verif.Props.Tools
import Verif.Props.CreateTool
/-!
# C94: what the programs may change, on any disk and whatever fails

No assumption is made about the disk (blocks may be damaged), the arguments, or what fails and when the program is killed.
-/

set_option autoImplicit false

namespace Verif

open Spec

local notation "Same" => (fun fs fs' : FS => fs' = fs)

/-! ## Programs that only look -/

theorem keeps_listEntries (visit : CStr → List CStr → M (List CStr)) (blockname : CStr) (h : ∀ n l, Keeps (visit n l)) :
    ∀ (es l : List CStr), Keeps (listEntries visit blockname es l) := by
  intro es
  induction es with
  | nil => intro l; exact keeps_pure _
  | cons e es ih => intro l; exact keeps_bind (h _ _) fun l' => ih l'

theorem keeps_listR (sort : List CStr → List CStr) (base : CStr) : ∀ (fuel : Nat) (name : CStr) (l : List CStr), Keeps (listR sort base fuel name l) := by
  intro fuel
  induction fuel with
  | zero => intro name l; exact keeps_hang
  | succ fuel ih =>
    intro name l
    unfold listR
    refine keeps_bind (keeps_scandir _ _) fun o => ?_
    cases o with
    | none => exact keeps_pure _
    | some names => exact keeps_listEntries _ _ (fun n l => keeps_bind (keeps_openR _ _) fun b => keeps_ite (keeps_pure _) (ih _ _)) _ _

/-- **C94, listing.** -/
theorem C94_list (sort : List CStr → List CStr) (bf : CStr) : Keeps (bigFileList sort bf) := by
  unfold bigFileList
  exact keeps_bind keeps_getFS fun fs => keeps_bind (keeps_listR _ _ _ _ _) fun l => keeps_pure _

theorem keeps_lsBlock (env : Env) (long : Bool) (bf name : CStr) : Keeps (lsBlock env long bf name) := by
  unfold lsBlock
  refine Yields.keeps (P := fun _ => True) (Yields.bind chain_eq (openBlock_yields env bf name) ?_)
  rintro ⟨rc, o⟩ h
  cases o with
  | none => exact Yields.pure chain_eq trivial
  | some bb =>
    refine Yields.bind chain_eq (Yields.of_Keeps (keeps_close (h bb rfl).1)) fun _ _ => Yields.pure chain_eq trivial

theorem keeps_lsEntries (visit : CStr → M CStr) (path : CStr) (h : ∀ n, Keeps (visit n)) :
    ∀ (es : List CStr) (out : CStr), Keeps (lsEntries visit path es out) := by
  intro es
  induction es with
  | nil => intro out; exact keeps_pure _
  | cons e es ih => intro out; exact keeps_bind (h _) fun o => ih _

theorem keeps_lsR (env : Env) (sort : List CStr → List CStr) (long : Bool) (bf : CStr) :
    ∀ (fuel : Nat) (path : CStr), Keeps (lsR env sort long bf fuel path) := by
  intro fuel
  induction fuel with
  | zero => intro path; exact keeps_hang
  | succ fuel ih =>
    intro path
    unfold lsR
    dsimp only
    refine keeps_bind (keeps_statDir _) fun b => keeps_ite ?_ (keeps_pure _)
    refine keeps_bind (keeps_scandir _ _) fun o => ?_
    cases o with
    | none => exact keeps_pure _
    | some names =>
      refine keeps_lsEntries _ _ (fun n => keeps_bind (keeps_lsBlock _ _ _ _) ?_) _ _
      rintro ⟨rc, o⟩
      exact keeps_bind (ih _) fun o' => keeps_pure _

/-- **C94, bigfile-ls.** -/
theorem C94_ls (env : Env) (sort : List CStr → List CStr) (long : Bool) (file : CStr) (block : Option CStr) :
    Keeps (lsMain env sort long file block) := by
  unfold lsMain
  refine keeps_bind (keeps_bigFileOpen _) ?_
  rintro ⟨rc, bf⟩
  refine keeps_ite (keeps_pure _) ?_
  cases block with
  | none => exact keeps_bind keeps_getFS fun fs => keeps_bind (keeps_lsR _ _ _ _ _ _) fun o => keeps_pure _
  | some name => exact keeps_bind (keeps_lsBlock _ _ _ _) fun o => keeps_pure _

theorem printAttr_clean {env : Env} {long brief : Bool} {s : AttrSet} {a : Attr} {r : CStr × AttrSet}
    (h : printAttr env long s a brief = some r) : r.2.dirty = s.dirty := by
  unfold printAttr at h
  dsimp only at h
  rw [Option.map_eq_some_iff] at h
  obtain ⟨q, _, rfl⟩ := h
  rfl

theorem printAll_clean {env : Env} {long : Bool} : ∀ (as : List Attr) (s : AttrSet) (r : CStr × AttrSet),
    printAll env long as s = some r → r.2.dirty = s.dirty := by
  intro as
  induction as with
  | nil => intro s r h; cases h; rfl
  | cons a as ih =>
    intro s r h
    unfold printAll at h
    rw [Option.bind_eq_some_iff] at h
    obtain ⟨q, h1, h2⟩ := h
    rw [Option.map_eq_some_iff] at h2
    obtain ⟨q', h2, rfl⟩ := h2
    exact (ih _ _ h2).trans (printAttr_clean h1)

theorem printNamed_clean {env : Env} {long brief : Bool} : ∀ (ns : List CStr) (s : AttrSet) (r : CStr × AttrSet),
    printNamed env long brief ns s = some r → r.2.dirty = s.dirty := by
  intro ns
  induction ns with
  | nil => intro s r h; cases h; rfl
  | cons n ns ih =>
    intro s r h
    unfold printNamed at h
    split at h
    · rw [Option.bind_eq_some_iff] at h
      obtain ⟨q, h1, h2⟩ := h
      rw [Option.map_eq_some_iff] at h2
      obtain ⟨q', h2, rfl⟩ := h2
      exact (ih _ _ h2).trans (printAttr_clean h1)
    · rw [Option.map_eq_some_iff] at h
      obtain ⟨q', h2, rfl⟩ := h
      exact (ih s _ h2 : _)

/-- **C94, bigfile-get-attr.** -/
theorem C94_getAttr (env : Env) (file block : CStr) (long : Bool) (names : List CStr) : Keeps (getAttrMain env file block long names) := by
  unfold getAttrMain
  refine keeps_bind (keeps_bigFileOpen _) ?_
  rintro ⟨rc, bf⟩
  refine keeps_ite (keeps_pure _) ?_
  refine Yields.keeps (P := fun _ => True) (Yields.bind chain_eq (openBlock_yields env bf block) ?_)
  rintro ⟨rc, o⟩ h
  cases o with
  | none => exact Yields.pure chain_eq trivial
  | some bb =>
    have hcl := (h bb rfl).1
    refine Yields.bind chain_eq (Yields.lift (P := fun r => r.2.dirty = false) chain_eq ?_) ?_
    · intro r hr
      split at hr
      · exact (printAll_clean _ _ _ hr).trans hcl.2
      · exact (printNamed_clean _ _ _ hr).trans hcl.2
    · rintro ⟨out, s⟩ hs
      exact Yields.bind chain_eq (Yields.of_Keeps (keeps_close ⟨hcl.1, hs⟩)) fun _ _ => Yields.pure chain_eq trivial

theorem keeps_catLoop (env : Env) (bb : Block) (print : Arr → Mem → Option (List Byte × Mem)) (size stop buf : Int) :
    ∀ (fuel chunk : Nat) (off : Int) (mem : Mem) (out : List Byte), Keeps (catLoop env bb print size stop buf fuel chunk off mem out) := by
  intro fuel
  induction fuel with
  | zero => intro chunk off mem out; exact keeps_hang
  | succ fuel ih =>
    intro chunk off mem out
    unfold catLoop
    refine keeps_ite ?_ (keeps_pure _)
    dsimp only
    refine keeps_bind (keeps_readSimple _ _ _ _ _ _ _) ?_
    rintro ⟨rc, arr, mem'⟩
    cases arr with
    | none => exact keeps_pure _
    | some a =>
      refine keeps_bind (keeps_lift _) ?_
      rintro ⟨o, mem''⟩
      exact ih _ _ _ _

/-- **C94, bigfile-cat.** -/
theorem C94_cat (env : Env) (file block : CStr) (binary : Bool) (start size : Int) (buffersize : Nat) (buf : Int) (mem : Mem) :
    Keeps (catMain env file block binary start size buffersize buf mem) := by
  unfold catMain
  refine keeps_bind (keeps_bigFileOpen _) ?_
  rintro ⟨rc, bf⟩
  refine keeps_ite (keeps_pure _) ?_
  refine Yields.keeps (P := fun _ => True) (Yields.bind chain_eq (openBlock_yields env bf block) ?_)
  rintro ⟨rc, o⟩ h
  cases o with
  | none => exact Yields.pure chain_eq trivial
  | some bb =>
    have hcl := (h bb rfl).1
    refine Yields.bind chain_eq (Yields.of_Keeps ?_) ?_
    · unfold catData
      dsimp only
      exact keeps_bind (keeps_lift _) fun _ => keeps_bind (keeps_lift _) fun _ => keeps_catLoop _ _ _ _ _ _ _ _ _ _ _
    · rintro ⟨e, out⟩ _
      refine Yields.ite (fun _ => Yields.pure chain_eq trivial) (fun _ => ?_)
      exact Yields.bind chain_eq (Yields.of_Keeps (keeps_close hcl)) fun _ _ => Yields.pure chain_eq trivial

theorem keeps_checkBlocks (env : Env) (sort : List CStr → List CStr) (file : CStr) (buf : Int) (mem : Mem) :
    ∀ bs : List CStr, Keeps (checkBlocks env sort file buf mem bs) := by
  intro bs
  induction bs with
  | nil => exact keeps_pure _
  | cons b bs ih =>
    unfold checkBlocks
    refine keeps_bind ?_ fun o => keeps_bind ih fun o' => keeps_pure _
    unfold checkBlock
    refine keeps_bind (C94_cat _ _ _ _ _ _ _ _ _) ?_
    rintro ⟨e, data⟩
    refine keeps_bind (C94_ls _ _ _ _ _) ?_
    rintro ⟨e', line⟩
    exact keeps_ite (keeps_pure _) (keeps_pure _)

/-- **C94, bigfile-check.** -/
theorem C94_check (env : Env) (sort : List CStr → List CStr) (file : CStr) (blocks : List CStr) (buf : Int) (mem : Mem) :
    Keeps (checkMain env sort file blocks buf mem) := by
  unfold checkMain
  refine keeps_ite ?_ (keeps_checkBlocks _ _ _ _ _ _)
  refine keeps_bind (C94_ls _ _ _ _ _) ?_
  rintro ⟨e, out⟩
  exact keeps_checkBlocks _ _ _ _ _ _

/-! ## bigfile-set-attr -/

theorem close_attrs (env : Env) (bb : Block) (h : bb.dirty = false) : Yields (OnlyAttrs bb.basename) (fun _ => True) (blockClose env bb) := by
  have hc := chain_attrs bb.basename
  have hset : ∀ (fs : FS) (n : Node), OnlyAttrs bb.basename fs (fs.set (fileKey bb.basename .attrV2) n) :=
    fun fs n k hk => FS.set_other _ _ _ _ hk
  have hopen : Yields (OnlyAttrs bb.basename) (fun _ => True) (openAFile bb.basename .attrV2 .w) := by
    intro w
    apply wlp_of_wpc
    refine wpc_fopen_w _ _ _ _ ?_ (fun w' h1 _ => by intro k _; rw [h1])
    intro b w' _ h1 h2 _
    cases b with
    | false => exact ⟨fun k _ => by rw [h1 rfl], trivial⟩
    | true => exact ⟨by rw [(h2 rfl).1]; exact hset _ _, trivial⟩
  have hwrite : ∀ bs, Yields (OnlyAttrs bb.basename) (fun _ => True) (writeText (filePath bb.basename .attrV2) bs) := by
    intro bs w
    unfold writeText
    rw [wlp_bind]
    show wlp _ ({ w with clock := w.clock + 1 } : World) _ _
    rw [wlp_bind]
    show wlp _ ({ w with clock := w.clock + 1 } : World) _ _
    dsimp only
    split
    · exact ⟨hset _ _, trivial⟩
    · exact ⟨hc.refl _, trivial⟩
    · exact ⟨hset _ _, trivial⟩
    · exact ⟨hset _ _, trivial⟩
    · exact hset _ _
  unfold blockClose blockFlush flushHeader
  rw [if_neg (by rw [h]; decide)]
  refine Yields.bind (P := fun _ => True) hc ?_ fun _ _ => Yields.pure hc trivial
  refine Yields.bind (P := fun r => r = (true, bb)) hc (Yields.pure hc rfl) ?_
  rintro _ rfl
  refine Yields.ite (fun _ => Yields.pure hc trivial) (fun _ => Yields.ite (fun _ => ?_) (fun _ => Yields.pure hc trivial))
  refine Yields.bind (P := fun _ => True) hc ?_ ?_
  · unfold writeAttrsV2
    refine Yields.bind hc hopen fun b _ => Yields.ite (fun _ => ?_) (fun _ => Yields.pure hc trivial)
    refine Yields.bind (P := fun _ => True) hc (Yields.lift hc fun _ _ => trivial) ?_
    rintro ⟨txt, s⟩ _
    exact Yields.bind hc (hwrite _) fun b _ => Yields.ite (fun _ => Yields.pure hc trivial) (fun _ => Yields.pure hc trivial)
  · rintro ⟨rc, s⟩ _
    exact Yields.ite (fun _ => Yields.pure hc trivial) (fun _ => Yields.pure hc trivial)

theorem bigFileOpen_yields {file : CStr} (hfl : file.length ≤ 8192) :
    Yields Same (fun r => r.1 = 0 → r.2 = file) (bigFileOpen file) := by
  intro w
  exact wlp_mono (wlp_of_wpc (bigFileOpen_may hfl)) (fun _ _ h => ⟨h.1, h.2.2⟩) (fun _ h => h)

/-- **C94, bigfile-set-attr.** Only the file with the attributes of the block can change: not the header, and no row. -/
theorem C94_setAttr (env : Env) (sc : FloatScan) (file block name : CStr) (force : Bool) (dtype : Option CStr) (nmemb : Int)
    (args : List CStr) (buf : Int) (mem : Mem) (hfl : file.length ≤ 8192) (hlen : (pathJoin file block).length ≤ 8192) :
    ChangesOnly (OnlyAttrs (pathJoin file block)) (setAttrMain env sc file block name force dtype nmemb args buf mem) := by
  have hc := chain_attrs (pathJoin file block)
  have same : ∀ {α : Type} {P : α → Prop} {m : M α}, Yields Same P m → Yields (OnlyAttrs (pathJoin file block)) P m :=
    fun h => h.wider fun a b hab k _ => by rw [hab]
  refine Yields.leaves (P := fun _ => True) ?_
  unfold setAttrMain
  refine Yields.bind hc (same (bigFileOpen_yields hfl)) ?_
  rintro ⟨rc, bf⟩ hbf
  refine Yields.ite (fun _ => Yields.pure hc trivial) (fun hrc => ?_)
  rw [ne_eq, Decidable.not_not] at hrc
  obtain rfl : bf = file := hbf hrc
  refine Yields.bind hc (same (openBlock_yields env bf block)) ?_
  rintro ⟨rc, o⟩ h
  cases o with
  | none => exact Yields.pure hc trivial
  | some bb =>
    obtain ⟨hcl, hb⟩ := h bb rfl
    rw [strdup_short hlen] at hb
    dsimp only
    refine Yields.bind (P := fun _ => True) hc (Yields.lift hc fun _ _ => trivial) fun dt _ => ?_
    refine Yields.bind (P := fun _ => True) hc (Yields.lift hc fun _ _ => trivial) fun o _ => ?_
    cases o with
    | none => exact Yields.pure hc trivial
    | some q =>
      obtain ⟨n, mem'⟩ := q
      refine Yields.bind (P := fun _ => True) hc (Yields.lift hc fun _ _ => trivial) ?_
      rintro ⟨rc, s, sm⟩ _
      rw [← hb]
      rw [← hb] at hc
      exact Yields.bind hc (close_attrs env { bb with attrset := s } hcl.1) fun _ _ => Yields.pure hc trivial

/-- What is left alone: the header, and every data file, of this block and of any other. -/
theorem C94_onlyAttrs {base : CStr} {fs fs' : FS} (h : OnlyAttrs base fs fs') :
    fs'.node (fileKey base .header) = fs.node (fileKey base .header) ∧
      ∀ i, fs'.node (fileKey base (.data i)) = fs.node (fileKey base (.data i)) :=
  ⟨h _ (fileKey_ne (by intro he; cases he)), fun i => h _ (fileKey_ne (by intro he; cases he))⟩

/-! ## bigfile-copy and bigfile-create -/

/-- Without a name no file is made. -/
theorem bigFileCreate_none : Yields Same (fun r => r.1 ≠ 0) (bigFileCreate []) := by
  intro w
  unfold bigFileCreate mksubdirR
  show wlp ((mkdirOk [] >>= fun b => if b = true then pure 0 else pure (-1)) >>= fun rt => pure _) w _ _
  rw [wlp_bind, wlp_bind]
  unfold mkdirOk
  rw [wlp_bind]
  show wlp _ ({ w with clock := w.clock + 1 } : World) _ _
  cases w.faults w.clock with
  | crash n => exact rfl
  | fail => exact ⟨rfl, by decide⟩
  | none => exact ⟨rfl, by decide⟩
  | short n => exact ⟨rfl, by decide⟩
  | silent n => exact ⟨rfl, by decide⟩

theorem copyLoop_yields (env : Env) (bb : Block) (chunk : Nat) (buf : Int) (dst : CStr) : ∀ (fuel : Nat) (bn : Block) (off : Nat) (mem : Mem),
    bn.basename = dst → Yields (OnlyMade dst) (fun r => r.2.basename = dst) (copyLoop env bb chunk buf fuel bn off mem) := by
  have hc := chain_made dst
  intro fuel
  induction fuel with
  | zero => intro bn off mem _; exact Yields.hang
  | succ fuel ih =>
    intro bn off mem hb
    unfold copyLoop
    refine Yields.ite (fun _ => ?_) (fun _ => Yields.pure hc hb)
    refine Yields.bind hc (Yields.of_keeps hc (keeps_readSimple _ _ _ _ _ _ _)) ?_
    rintro ⟨rc, arr, mem'⟩ _
    cases arr with
    | none => exact Yields.pure hc hb
    | some a =>
      refine Yields.bind hc (Yields.of_keeps hc (keeps_lift _)) ?_
      rintro ⟨rc, ptr⟩ _
      refine Yields.ite (fun _ => Yields.pure hc hb) (fun _ => ?_)
      have hw := (blockWrite_yields env (loopFuel a) bn ptr a mem').wider (fun _ _ h => OnlyMade.of_outside h)
      rw [hb] at hw
      refine Yields.bind hc hw fun x hx => ?_
      exact Yields.ite (fun _ => Yields.pure hc hx) (fun _ => ih _ _ _ hx)

theorem copyAttrs_clean {env : Env} : ∀ (as : List Attr) (src s : AttrSet) (r : AttrSet × AttrSet),
    copyAttrs env src as s = some r → r.2.dirty = src.dirty := by
  intro as
  induction as with
  | nil => intro src s r h; unfold copyAttrs at h; cases h; rfl
  | cons a as ih =>
    intro src s r h
    unfold copyAttrs at h
    split at h
    · cases h
    · exact (ih _ _ _ h).trans rfl

theorem close_made (env : Env) (bb : Block) : Yields (OnlyMade bb.basename) (fun _ => True) (blockClose env bb) :=
  (Yields.of_touches (blockClose_touches env bb)).wider fun _ _ h => OnlyMade.of_outside h

/-- **C94, bigfile-copy.** Only files of the new block can change, and directories on the way to it can be made. -/
theorem C94_copy (env : Env) (file block newfile newblock : CStr) (nfile : Option Nat) (buffersize : Nat) (buf : Int) (mem : Mem)
    (hnewl : newfile.length ≤ 8192) (hlen : (pathJoin newfile newblock).length ≤ 8192) :
    ChangesOnly (OnlyMade (pathJoin newfile newblock)) (copyMain env file block newfile newblock nfile buffersize buf mem) := by
  have hc := chain_made (pathJoin newfile newblock)
  refine Yields.leaves (P := fun _ => True) ?_
  unfold copyMain
  refine Yields.bind hc (Yields.of_keeps hc (keeps_bigFileOpen _)) ?_
  rintro ⟨rc, bf⟩ _
  refine Yields.ite (fun _ => Yields.pure hc trivial) (fun _ => ?_)
  by_cases hne : newfile = []
  · subst hne
    refine Yields.bind hc (bigFileCreate_none.wider fun a b hab => by rw [hab]; exact hc.refl _) ?_
    rintro ⟨rc2, bf2⟩ h2
    exact Yields.ite (fun _ => Yields.pure hc trivial) (fun h => absurd h2 h)
  refine Yields.bind hc (bigFileCreate_yields _ newfile hne hnewl (by rw [resolve_join _ _ hne]; exact List.prefix_append _ _)) ?_
  rintro ⟨rc2, bf2⟩ h2
  dsimp only at h2
  subst h2
  refine Yields.ite (fun _ => Yields.pure hc trivial) (fun _ => ?_)
  refine Yields.bind hc ((openBlock_yields env bf block).wider fun a b hab => by rw [hab]; exact hc.refl _) ?_
  rintro ⟨rc3, o⟩ h3
  cases o with
  | none => exact Yields.pure hc trivial
  | some bb =>
    have hcl := (h3 bb rfl).1
    dsimp only
    refine Yields.bind hc (createBlock_yields env bf2 newblock _ _ _ hne hlen) ?_
    rintro ⟨rc4, o⟩ h4
    cases o with
    | none => exact Yields.pure hc trivial
    | some bn =>
      have hbn := h4 bn rfl
      refine Yields.ite (fun _ => Yields.pure hc trivial) (fun _ => ?_)
      refine Yields.bind (P := fun r => r.2.dirty = false) hc (Yields.lift hc fun r hr => (copyAttrs_clean _ _ _ _ hr).trans hcl.2) ?_
      rintro ⟨s, src⟩ hsrc
      dsimp only
      have hdata : Yields (OnlyMade (pathJoin bf2 newblock)) (fun r => r.2.basename = pathJoin bf2 newblock)
          (copyData env { bb with attrset := src } { bn with attrset := s } buffersize buf mem) := by
        unfold copyData
        refine Yields.ite (fun _ => ?_) (fun _ => Yields.pure hc hbn)
        exact Yields.bind hc (Yields.of_keeps hc (keeps_lift _)) fun chunk _ => copyLoop_yields _ _ _ _ _ _ _ _ _ hbn
      refine Yields.bind hc hdata ?_
      rintro ⟨e, bn2⟩ hb2
      dsimp only at hb2
      refine Yields.ite (fun _ => Yields.pure hc trivial) (fun _ => ?_)
      have hcl2 := close_made env bn2
      rw [hb2] at hcl2
      refine Yields.bind hc hcl2 fun rc _ => Yields.ite (fun _ => Yields.pure hc trivial) (fun _ => ?_)
      exact Yields.bind hc (Yields.of_keeps hc (keeps_close ⟨hcl.1, hsrc⟩)) fun _ _ => Yields.pure hc trivial

theorem createLoop_yields (env : Env) (rowbytes chunk : Nat) (buf : Int) (dst : CStr) :
    ∀ (fuel : Nat) (bb : Block) (ptr : Option Ptr) (off : Nat) (input : List Byte) (mem : Mem), bb.basename = dst →
    Yields (OnlyMade dst) (fun r => r.1.basename = dst) (createLoop env rowbytes chunk buf fuel bb ptr off input mem) := by
  have hc := chain_made dst
  intro fuel
  induction fuel with
  | zero => intro bb ptr off input mem _; exact Yields.hang
  | succ fuel ih =>
    intro bb ptr off input mem hb
    unfold createLoop
    dsimp only
    refine Yields.bind hc (Yields.of_keeps hc (keeps_lift _)) fun a _ => ?_
    refine Yields.bind hc (Yields.of_keeps hc (keeps_lift _)) ?_
    rintro ⟨rc, p⟩ _
    refine Yields.ite (fun _ => Yields.ub) (fun _ => ?_)
    have hw := (blockWrite_yields env (loopFuel a) bb p a (poke mem buf (freadIn rowbytes chunk input).bytes)).wider
      (fun _ _ h => OnlyMade.of_outside h)
    rw [hb] at hw
    refine Yields.bind hc hw fun x hx => ?_
    exact Yields.ite (fun _ => Yields.pure hc hx) (fun _ => ih _ _ _ _ _ hx)

/-- **C94, bigfile-create.** Only files of the block to be made can change, and directories on the way to it can be made. -/
theorem C94_create (env : Env) (file block dtype : CStr) (nmemb : Int) (buffersize : Nat) (buf : Int) (input : List Byte) (mem : Mem)
    (hfl : file.length ≤ 8192) (hlen : (pathJoin file block).length ≤ 8192) :
    ChangesOnly (OnlyMade (pathJoin file block)) (createMain env file block dtype nmemb buffersize buf input mem) := by
  have hc := chain_made (pathJoin file block)
  refine Yields.leaves (P := fun _ => True) ?_
  unfold createMain
  by_cases hne : file = []
  · subst hne
    refine Yields.bind hc (bigFileCreate_none.wider fun a b hab => by rw [hab]; exact hc.refl _) ?_
    rintro ⟨rc2, bf2⟩ h2
    exact Yields.ite (fun _ => Yields.pure hc trivial) (fun h => absurd h2 h)
  refine Yields.bind hc (bigFileCreate_yields _ file hne hfl (by rw [resolve_join _ _ hne]; exact List.prefix_append _ _)) ?_
  rintro ⟨rc, bf⟩ h
  dsimp only at h
  subst h
  refine Yields.ite (fun _ => Yields.pure hc trivial) (fun _ => ?_)
  refine Yields.bind hc (createBlock_yields env bf block _ _ _ hne hlen) ?_
  rintro ⟨rc4, o⟩ h4
  cases o with
  | none => exact Yields.pure hc trivial
  | some bb =>
    have hb := h4 bb rfl
    dsimp only
    refine Yields.bind hc (Yields.of_keeps hc (keeps_lift _)) fun chunk _ => ?_
    refine Yields.bind hc (createLoop_yields env _ _ _ _ _ _ _ _ _ _ hb) ?_
    rintro ⟨b2, off⟩ hb2
    dsimp only at hb2
    have hcl : ∀ b : Block, b.basename = pathJoin bf block → Yields (OnlyMade (pathJoin bf block)) (fun _ => True) (blockClose env b) := by
      intro b h
      rw [← h]
      exact close_made env b
    exact Yields.bind hc (hcl _ hb2) fun _ _ => Yields.pure hc trivial

/-- What is left alone: the files of any other block whose directory is there and that does not lie in the files of the new block. -/
theorem C94_others {dst src : CStr} {fs fs' : FS} (h : OnlyMade dst fs fs') (ha : Apart src dst) (hd : fs.node (resolve src) = some .dir) :
    ∀ id, fs'.node (fileKey src id) = fs.node (fileKey src id) := (h.source ha hd).2

/-! ### The examples -/

/-- A disk with a block whose header is cut off and whose data file ends within a row, and a program killed at operation 7. -/
def exTornWorld : World :=
  let fs := exTree.set (resolve b!"d/z") .dir
  let fs := fs.set (fileKey b!"d/z" .header) (.file b!"DTYPE: <i4\nNMEMB: 1\nNFI")
  ⟨fs.set (fileKey b!"d/z" (.data 0)) (.file [1, 2, 3]), fun i => if i = 7 then .crash 2 else .none, 0⟩

/-- On this disk: bigfile-cat fails, bigfile-copy makes the directory `e/f` and fails, bigfile-create makes a block and is killed. -/
theorem C94_torn :
    (match catMain exEnv b!"d" b!"z" true 0 (-1) 9 500 exMem exTornWorld with
      | .ok (.failed, _) _ => true
      | _ => false) = true ∧
    (match copyMain exEnv b!"d" b!"z" b!"e/f" b!"y" none 9 500 exMem exTornWorld with
      | .ok .failed w' => (w'.fs.node (resolve b!"e/f") = some .dir ∧ exTornWorld.fs.node (resolve b!"e/f") = none : Bool)
      | _ => false) = true ∧
    (match createMain exEnv b!"e" b!"s" b!"<i4" 2 9 500 exStream exMem exTornWorld with
      | .crash w' => (w'.fs.node (fileKey b!"e/s" .header) ≠ none : Bool)
      | _ => false) = true := by decide +kernel

/-- bigfile-set-attr is killed while it writes the attributes: the attributes are lost, the rows are not. The example of
`C94_setAttr`. -/
theorem C94_setAttr_killed :
    (match (do let _ ← exCopySrc; let fs ← getFS; pure fs) exTreeWorld with
      | .ok fs _ =>
        (List.range 30).any fun n =>
          match setAttrMain exEnv exScan b!"d" b!"z" b!"n" true (some b!"i8") 1 [b!"5"] 500 exMem
            ⟨fs, fun i => if i = n then .crash 4 else .none, 0⟩ with
          | .crash w' => (w'.fs.node (fileKey b!"d/z" .attrV2) ≠ fs.node (fileKey b!"d/z" .attrV2) : Bool)
          | _ => false
      | _ => false) = true := by decide +kernel

end Verif
