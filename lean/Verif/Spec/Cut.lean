import Verif.Spec.Header
import Verif.Spec.Copy
/-!
# Specification: headers that were not written to the end
-/

set_option autoImplicit false

namespace Verif.Spec

open Verif

/-- The header file holds the header of `bb`, or only the beginning of it. -/
def HeaderCut (fs : FS) (base : CStr) (bb : Block) : Prop :=
  GoodHeader bb ∧ ∃ n, fs.node (fileKey base .header) = some (.file ((headerText bb).take n))

/-- The handle `b` has the dtype, the members, the files, their sizes and their checksums that `bb` has. -/
structure SameLayout (b bb : Block) : Prop where
  dtype : b.dtype = bb.dtype
  nmemb : b.nmemb = bb.nmemb
  nfile : b.nfile = bb.nfile
  fsize : b.fsize = bb.fsize
  fchecksum : b.fchecksum = bb.fchecksum
  size : bb.fsize.sum < 18446744073709551616 → b.size = bb.fsize.sum

end Verif.Spec
