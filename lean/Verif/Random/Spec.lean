import Verif.Random.Model

/-!
What it means that the kernel delivered the bytes of a request, whatever the schedule of short reads and interruptions.
-/

namespace Verif.Random
open Verif

/-- The kernel never writes more than it was asked for. -/
def KernelOk (k : Kernel) : Prop := ∀ i c b, k i c = .data b → b.length ≤ c

/-- From call `i` on, asked for what is missing of `n` bytes but for at most `mx` at once, the kernel delivers the bytes `b` piece by piece and the last call
is number `i' - 1`. -/
inductive Delivers (k : Kernel) (mx : Nat) : Nat → Nat → Bytes → Nat → Prop
  | done (i) : Delivers k mx i 0 [] i
  | again {i n b i'} : 0 < n → k i (min n mx) = .again → Delivers k mx (i + 1) n b i' → Delivers k mx i n b i'
  | piece {i n d b i'} : 0 < n → k i (min n mx) = .data d → Delivers k mx (i + 1) (n - d.length) b i' → Delivers k mx i n (d ++ b) i'

/-- The same, but call number `i' - 1` fails for good after the bytes `b`. -/
inductive Breaks (k : Kernel) (mx : Nat) : Nat → Nat → Bytes → Nat → Prop
  | fail {i n} : 0 < n → k i (min n mx) = .fail → Breaks k mx i n [] (i + 1)
  | again {i n b i'} : 0 < n → k i (min n mx) = .again → Breaks k mx (i + 1) n b i' → Breaks k mx i n b i'
  | piece {i n d b i'} : 0 < n → k i (min n mx) = .data d → Breaks k mx (i + 1) (n - d.length) b i' → Breaks k mx i n (d ++ b) i'

/-- A request that the kernel ends, one way or the other, by call `N`: every schedule in which from call `N` on each call delivers something or fails. -/
def Lively (k : Kernel) (N : Nat) : Prop := ∀ i c, N ≤ i → 0 < c → k i c = .fail ∨ ∃ d, d ≠ [] ∧ k i c = .data d

end Verif.Random
