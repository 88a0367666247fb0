import Verif.Pool.Ring
/-! What the ring should do, in terms of the servers' points only. -/

namespace Verif
namespace Spec
open Pool

variable {S : Type}

/-- `n` owns hash `h` among the points `pts`: it is a point with the greatest hash below `h`,
or, when no point is below `h`, a point with the lowest hash. -/
def Owns (pts : List (Node S)) (h : Nat) (n : Node S) : Prop :=
  n ∈ pts ∧
    ((n.hash < h ∧ ∀ m ∈ pts, m.hash < h → m.hash ≤ n.hash)
      ∨ ((∀ m ∈ pts, ¬ m.hash < h) ∧ ∀ m ∈ pts, n.hash ≤ m.hash))

/-- The key's hash is the hash of a point. -/
def Hit (pts : List (Node S)) (h : Nat) : Prop := ∃ m ∈ pts, m.hash = h

/-- No two points of different servers have the same hash. -/
def NoClash (pts : List (Node S)) : Prop :=
  ∀ a ∈ pts, ∀ b ∈ pts, a.hash = b.hash → a.server = b.server

end Spec
end Verif
