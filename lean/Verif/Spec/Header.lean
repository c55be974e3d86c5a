import Verif.Model.Block
/-!
# Specification: blocks the header can represent
-/

set_option autoImplicit false

namespace Verif

/-- A dtype that survives being printed and scanned: no blank, no NUL, fits the buffer, valid. -/
structure PlainDtype (dt : CStr) : Prop where
  ne : dt ≠ []
  short : dt.length < 8
  chars : ∀ c ∈ dt, isSpace c = false ∧ c ≠ 0
  valid : dtypeIsValid dt = true

/-- What a header must satisfy to be read back. -/
structure GoodHeader (bb : Block) : Prop where
  dt : PlainDtype bb.dtype
  nmemb0 : 0 ≤ bb.nmemb
  nmembMax : bb.nmemb < 2147483648
  nfile : bb.fsize.length = bb.nfile
  nck : bb.fchecksum.length = bb.nfile
  nfileMax : bb.nfile ≤ 16777216
  sizes : ∀ s ∈ bb.fsize, s < 18446744073709551616
  cks : ∀ c ∈ bb.fchecksum, c < 4294967296

/-- The same for any number of files that `NFILE` can hold. -/
structure WideHeader (bb : Block) : Prop where
  dt : PlainDtype bb.dtype
  nmemb0 : 0 ≤ bb.nmemb
  nmembMax : bb.nmemb < 2147483648
  nfile : bb.fsize.length = bb.nfile
  nck : bb.fchecksum.length = bb.nfile
  nfileMax : bb.nfile < 2147483646
  sizes : ∀ s ∈ bb.fsize, s < 18446744073709551616
  cks : ∀ c ∈ bb.fchecksum, c < 4294967296

end Verif
