import Verif.Model.RawExpr

/-!
# Raw statements of the threaded prover

The statements of `prover_fast_para_track.cpp` on 512-bit values that differ from those of the other
provers (`Model/RawStmts`).
-/

namespace Libra.ParaTrack
open Raw

/-- `(a * b + c - d) % mod` — prover_fast_para_track.cpp:632, 635, 638: the slope of a table entry in
phase 2. The same statement in phase 1 (354, 357, 360) has `+ mod` before `%` and is `RawStmt.s11`. -/
def slope2 : Raw := .rem (.sub (.add (.mul (.var 0) (.var 1)) (.var 2)) (.var 3))

/-- `rets[id].c.value + A.value * V.value + B.value` executed `k` times without reduction
(prover_fast_para_track.cpp:376-377, 656-657), starting with a canonical value -/
def accumulate : ℕ → Raw
  | 0 => .var 0
  | k + 1 => .add (.add (accumulate k) (.mul (.var (3 * k + 1)) (.var (3 * k + 2)))) (.var (3 * k + 3))

/-- ... and then reduced (prover_fast_para_track.cpp:368-369, 647-648). Phase 1 reduces when `i % 4 == 0` (up to
`k = 4`), phase 2 when `i % 8 == 0` (up to `k = 8`). -/
def accumulateReduce (k : ℕ) : Raw := .rem (accumulate k)

/-- `add_mult_sum[v].b.value + beta_g_sum[g].value * beta_u[u].value`, `k` times
(prover_fast_para_track.cpp:532), reduced afterwards (539, 556): up to 31 addition gates. -/
def gatherSum : ℕ → Raw
  | 0 => .lit 0
  | k + 1 => .add (gatherSum k) (.mul (.var (2 * k)) (.var (2 * k + 1)))

/-- the sum, reduced -/
def gatherReduce (k : ℕ) : Raw := .rem (gatherSum k)

end Libra.ParaTrack
