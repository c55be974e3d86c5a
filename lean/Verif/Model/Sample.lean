import Verif.Model.Copy
/-!
# `bigfile-sample-mpi`

Models `/repo/utils/bigfile-sample-mpi.c`: how many rows of each chunk are taken (`filesize`, `server`), and what a worker does
with a chunk (`slave`). The random number generator of GSL is a parameter: any state, any function to advance it. The
exchange of messages between server and workers is that of `bigfile-copy-mpi`, see `Verif.Model.CopyMpi`: the server
sends a piece of work to whoever asks.
-/

set_option autoImplicit false

namespace Verif

/-- `struct work` (bigfile-sample-mpi.c:36-42). -/
structure Work where
  offset : Nat
  seed : Nat
  chunksize : Nat
  offsetnew : Nat
  nsel : Nat
  deriving DecidableEq

/-- A generator: `gsl_rng_get` gives a seed, `gsl_ran_poisson` with mean `chunksize * ratio` a number of rows.
(bigfile-sample-mpi.c:131-132, 146, 151.) -/
structure Rng where
  State : Type
  start : State
  get : State → Nat × State
  poisson : State → Nat → Nat × State

/-- `CHUNKSIZE` (bigfile-sample-mpi.c:29). -/
def sampleChunkRows : Nat := 1048576

/-- `filesize` (bigfile-sample-mpi.c:130-158); `all` says that the ratio is 1. The sum of sizes does not overflow. -/
def sampleSizeLoop (g : Rng) (all : Bool) (size : Nat) : Nat → Nat → Nat → g.State → Nat
  | 0, _, offsetnew, _ => offsetnew
  | fuel + 1, offset, offsetnew, s =>
    if offset < size then
      let chunksize := if offset + sampleChunkRows ≥ size then size - offset else sampleChunkRows
      let (_, s) := g.get s
      let (nsel, s) := if all then (chunksize, s) else g.poisson s chunksize
      sampleSizeLoop g all size fuel (offset + chunksize) (offsetnew + nsel) s
    else offsetnew

/-- `filesize` with enough rounds for its loop. (bigfile-sample-mpi.c:130-158.) -/
def sampleSize (g : Rng) (all : Bool) (size : Nat) : Nat := sampleSizeLoop g all size (size + 1) 0 0 g.start

/-- The pieces of work that `server` sends (bigfile-sample-mpi.c:159-203), in the order in which it sends them. -/
def sampleWorkLoop (g : Rng) (all : Bool) (size : Nat) : Nat → Nat → Nat → g.State → List Work
  | 0, _, _, _ => []
  | fuel + 1, offset, offsetnew, s =>
    if offset < size then
      let chunksize := if offset + sampleChunkRows ≥ size then size - offset else sampleChunkRows
      let (seed, s) := g.get s
      let (nsel, s) := if all then (chunksize, s) else g.poisson s chunksize
      ⟨offset, seed, chunksize, offsetnew, nsel⟩ :: sampleWorkLoop g all size fuel (offset + chunksize) (offsetnew + nsel) s
    else []

/-- All pieces of work. (bigfile-sample-mpi.c:159-203.) -/
def sampleWork (g : Rng) (all : Bool) (size : Nat) : List Work := sampleWorkLoop g all size (size + 1) 0 0 g.start

/-- The loop that selects rows (bigfile-sample-mpi.c:245-256), from row `i` on for `k` more rows: `p` points to the next selected
row, `q` to row `i`. `draw i n` is what `gsl_rng_uniform_int(rng, n)` gives in round `i`. Result: `nsel` and the memory. -/
def sampleSelect (draw : Nat → Nat → Nat) (step : Nat) : Nat → Nat → Nat → Nat → Int → Int → Mem → Nat × Mem
  | 0, _, _, nsel, _, _, mem => (nsel, mem)
  | k + 1, i, leftover, nsel, p, q, mem =>
    let r := draw i leftover
    let (nsel, p, mem) := if r < nsel then (nsel - 1, p + step, poke mem p (peek mem q step)) else (nsel, p, mem)
    if nsel = 0 then (0, mem)
    else sampleSelect draw step k (i + 1) (leftover - 1) nsel p (q + step) mem

/-- What `slave` does with a piece of work (bigfile-sample-mpi.c:204-280). `buf` and `abuf` are the addresses of the two buffers.
`failed` stands for the message with `ERROR_TAG`. -/
def sampleDo (env : Env) (bb : Block) (draw : Nat → Nat → Nat → Nat) (wk : Work) (buf abuf : Int) (bbnew : Block) (mem : Mem) :
    M (Exit × Block × Mem) := do
  let anew ← M.lift (arrayInit env.m buf bb.dtype [wk.nsel, u64 bb.nmemb] none)
  let step := u64 (itemsize env.m bb.dtype * bb.nmemb)
  let (_, arr, mem) ← readSimple env bb wk.offset wk.chunksize none abuf mem
  match arr with
  | none => pure (.failed, bbnew, mem)
  | some a =>
    let (left, mem) := sampleSelect (draw wk.seed) step wk.chunksize 0 wk.chunksize wk.nsel buf a.data mem
    if left ≠ 0 then pure (.aborted, bbnew, mem)
    else
      let (rc, ptr) ← M.lift (seek bbnew ⟨0, 0, 0⟩ wk.offsetnew)
      if rc ≠ 0 then pure (.failed, bbnew, mem)
      else
        let x ← blockWrite env bbnew ptr anew mem
        pure (if x.rc ≠ 0 then .failed else .done, x.bb, x.mem)

/-- Pieces of work done one after the other. Simplified: the workers have one handle and one memory together; that they work at
the same time is not represented. (bigfile-sample-mpi.c:204-280.) -/
def sampleRun (env : Env) (bb : Block) (draw : Nat → Nat → Nat → Nat) (buf abuf : Int) : List Work → Block → Mem → M (Exit × Block × Mem)
  | [], bbnew, mem => pure (.done, bbnew, mem)
  | wk :: ws, bbnew, mem => do
    let (e, bbnew, mem) ← sampleDo env bb draw wk buf abuf bbnew mem
    if e ≠ .done then pure (e, bbnew, mem) else sampleRun env bb draw buf abuf ws bbnew mem

end Verif
