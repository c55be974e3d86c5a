import Verif.Props.Disk
import Verif.Model.MpiBlock
/-!
# C106: the buffers in which text is built are large enough
-/

set_option autoImplicit false

namespace Verif

open Verif.Spec

/-- **C106, one element.** The text of an element has at most 28 characters, whatever its dtype and its bytes are; so it fits, with its
terminating zero, in the buffers of 128 bytes (writing attributes, bigfile-get-attr) and of 300 bytes (bigfile-cat). -/
theorem C106_format (env : Env) (hf : FmtOk env) (dtype t : CStr) (data : Int) (mem mem' : Mem)
    (h : dtypeFormat env dtype data mem = some (t, mem')) : t.length ≤ 28 := by
  unfold dtypeFormat at h
  dsimp only at h
  split at h
  · cases h
  · injection h with h
    injection h with h _
    rw [← h]
    have hlen : (dtypeNormalize env.m (61 :: (dtypeNormalize env.m dtype).drop 1)).length ≤ 7 := by
      obtain ⟨c, tl, e, _, htl⟩ := normalize_form env.m (61 :: (dtypeNormalize env.m dtype).drop 1)
      rw [e, List.length_cons]
      omega
    apply formatNative_length hf _ _ hlen
    rw [peek_length]
    unfold itemsize
    rw [normalize_idem]

/-- The loop over the elements adds at most 32 characters for each of them. -/
theorem textualLoop_length {env : Env} (hf : FmtOk env) (a : Attr) (isz : Int) : ∀ (k j : Nat) (acc t : CStr) (mem mem' : Mem),
    textualLoop env a isz k j acc mem = some (t, mem') → t.length ≤ acc.length + 32 * k := by
  intro k
  induction k with
  | zero =>
    intro j acc t mem mem' h
    injection h with h
    injection h with h _
    rw [← h]
    omega
  | succ k ih =>
    intro j acc t mem mem' h
    rw [textualLoop] at h
    split at h
    · split at h
      · cases h
      · rename_i x m e
        have h1 := ih _ _ _ _ _ h
        have h2 := C106_format env hf _ _ _ _ _ e
        have h3 : (x.takeWhile (· ≠ 0)).length ≤ x.length := (List.takeWhile_sublist _).length_le
        have h4 : (if (j : Int) ≠ a.nmemb - 1 then b!" " else []).length ≤ 1 := by split <;> decide
        rw [List.length_append, List.length_append] at h1
        omega
    · dsimp only at h
      split at h
      · injection h with h
        injection h with h _
        rw [← h, List.length_append, show (b!"...").length = 3 from rfl]
        omega
      · split at h
        · injection h with h
          injection h with h _
          rw [← h]
          omega
        · have h1 := ih _ _ _ _ _ h
          rw [List.length_append, List.length_singleton] at h1
          omega

/-- **C106, an attribute.** The human-readable part of any attribute, of any dtype and with any bytes, is shorter than its buffer of
`nmemb * 32 + 1` bytes. -/
theorem C106_attr_text (env : Env) (hf : FmtOk env) (a : Attr) (isz : Int) (t : CStr) (mem mem' : Mem) (hn : 0 ≤ a.nmemb)
    (h : textualLoop env a isz a.nmemb.toNat 0 [] mem = some (t, mem')) : (t.length : Int) < a.nmemb * 32 + 1 := by
  have := textualLoop_length hf a isz _ _ _ _ _ _ h
  rw [List.length_nil] at this
  omega

/-- **C106, the stored form.** The hexadecimal form of `n` bytes fits in its buffer of `2 n + 1` bytes. -/
theorem C106_raw (bs : List Byte) : (hexBytes bs).length < bs.length * 2 + 1 := by
  rw [hexBytes_length]
  omega

/-- **C106, one element in machine byte order.** An element of at most 128 bytes is converted without writing outside the buffer of
128 bytes, which is at address 0 here. (Attributes whose elements are larger are not formatted when they are stored, since all
their bytes together are more than 128; bigfile-get-attr and bigfile-cat do format such elements, which is undefined behaviour of the
model and of the program.) -/
theorem C106_convert (env : Env) (dtype : CStr) (hn : dtypeNormalize env.m dtype = dtype) (w : Nat) (hw : itemsize env.m dtype = w)
    (hw0 : 0 < w) (hw1 : w ≤ 128) (data : Int) (mem : Mem) :
    ∃ conv mem', convertSimple env.m env.fo 0 (dtypeNormalize env.m (61 :: dtype.drop 1)) data dtype 1 env.junk mem = some (0, conv, mem') ∧
      ∀ x, x < 0 ∨ 128 ≤ x → conv x = env.junk x := by
  obtain ⟨c, tl, hdt, hcc, htl⟩ := normalize_form env.m dtype
  rw [hn] at hdt
  subst hdt
  have hnd : dtypeNormalize env.m (61 :: (c :: tl).drop 1) = env.m.endian :: tl := by
    rw [show (c :: tl).drop 1 = tl from rfl, normalize_eq, List.take_of_length_le htl]
  rw [hnd]
  have hndfix : dtypeNormalize env.m (env.m.endian :: tl) = env.m.endian :: tl :=
    normalize_fix env.m _ tl (endian_cases env.m) htl
  have hwn : itemsize env.m (env.m.endian :: tl) = w := by
    rw [← hw]
    unfold itemsize
    rw [hndfix, hn]
    rfl
  obtain ⟨dm', sm', k1, k2, _⟩ := convertSimple_spec env.m env.fo 0 data (env.m.endian :: tl) (c :: tl)
    1 w w env.junk mem (fun i => toNative env.m (env.m.endian :: tl) (toNative env.m (c :: tl)
      (peek mem (data + (i * w : Nat)) w))) hwn hw hw0 (by omega) (by omega)
    (by rw [hndfix, hn]; unfold convertible; simp)
    (by intro i _; rw [hndfix, hn]; unfold convElem; simp)
  refine ⟨dm', sm', k1, fun x hx => k2 x ?_⟩
  omega

/-- **C106, names of data files.** The name of a data file has at most 8 characters; its buffer has 128. -/
theorem C106_data_name (i : Nat) (h : i < 4294967296) : (FileId.name (.data i)).length ≤ 8 := by
  have := digitsAux_len 16 (by decide) 7 i i h
  show (hex6Str i).length ≤ 8
  unfold hex6Str
  dsimp only
  rw [List.length_append, List.length_replicate]
  omega

/-- **C106, paths.** A joined path fits, with its terminating zero, in its buffer, which has 10 bytes more than the parts. -/
theorem C106_path (p q : CStr) : (pathJoin p q).length < p.length + q.length + 10 := by
  unfold pathJoin
  repeat' split
  · omega
  · rw [List.length_append]; omega
  · rw [List.length_append, List.length_cons]; omega

/-- **C106, paths of collective calls**: their buffer has 128 bytes more than the parts. -/
theorem C106_mpi_path (bf name : CStr) : (mpiPath bf name).length < bf.length + name.length + 128 := by
  unfold mpiPath
  simp only [List.length_append, List.length_cons, List.length_nil]
  omega

/-- A complex number. The hypotheses of `C106_format` are met. -/
example : ∃ t mem', dtypeFormat exEnv b!"<c16" 0 exEnv.junk = some (t, mem') ∧ t = b!"2.5+2.5I" := by
  refine ⟨_, _, rfl, by decide +kernel⟩

end Verif
