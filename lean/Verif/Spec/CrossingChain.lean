import Verif.Spec.Crossing
/-
Trajectories that cross switching surfaces several times.
-/
namespace Nosnoc

/-- A trajectory with `m` transversal crossings.  Part `q` of the trajectory is `φ q`, a solution for the vector
field `f q`; at the time `ts q` it crosses the surface `ψ q = 0` (from below) into the region of `f (q + 1)`, where
part `q + 1` begins.  The time `s q` lies between the crossings `q - 1` and `q`, with a margin `η`; the `q`-th crossing
is described (see `Crossing`) with time counted from `s q` to `s (q + 1) + η`, a duration of at most `T`. -/
structure CrossingChain {V : Type*} [NormedAddCommGroup V] [NormedSpace ℝ V] (n : Nat) (D : ℝ) (f : Nat → V → V)
    (ψ : Nat → V → ℝ) (m : Nat) (φ : Nat → ℝ → V) (s ts : Nat → ℝ) (η T α Lψ r vel μ : ℝ) : Prop where
  start : s 0 = 0
  later : ∀ q < m, q ≠ 0 → s q + η ≤ ts q
  sooner : ∀ q < m, ts q + η ≤ s (q + 1)
  length : ∀ q < m, s (q + 1) + η - s q ≤ T
  crossing : ∀ q < m, ∃ G, Crossing n D (f q) (f (q + 1)) (ψ q) (fun t => φ q (s q + t))
    (fun t => φ (q + 1) (s q + t)) G (ts q - s q) η (s (q + 1) + η - s q) α Lψ r vel μ

/-- `i`, `i'`, `i`, `i'`, ... -/
def alternate (i i' q : Nat) : Nat := if q % 2 = 0 then i else i'

end Nosnoc
