import Verif.Model.Pack
import Verif.Model.Python
/-!
# Python: pickling columns

Models `/repo/bigfile/pyxbigfile.pyx` lines 281-286, 325-351 and 571-574.
-/

set_option autoImplicit false

namespace Verif

/-- `__getstate__` (pyxbigfile.pyx:328-341): `none` if nothing was opened (`_deallocated`); `comm` is left out. -/
def pyColGetstate (env : Env) (col : Option Block) : Option Packed := col.map (blockPack env)

/-- `__setstate__` (pyxbigfile.pyx:343-351), called by `_unpickle_column` (lines 283-286) for an object that is new. -/
def pyColSetstate (env : Env) (state : Option Packed) : Option Block := state.map (blockUnpack env)

/-- `__dealloc__` (pyxbigfile.pyx:571-574): when the last reference goes away. The result of `big_block_close` is not looked at. -/
def pyColDel (env : Env) (col : Option Block) : M Unit :=
  match col with
  | none => pure ()
  | some bb => do
    let _ ← blockClose env bb
    pure ()

end Verif
