import Verif.Pool.Single
/-! What the pool operations should do, in terms of calls on servers. -/

namespace Verif
namespace Spec
open Pool

variable {S W : Type}

/-- Ask the listed servers for the listed keys one after the other and put the answers
together; the first failure is the result of the whole. -/
def askAll (ops : S → ServerOps W) : List (S × List Bytes) → Act W (List Item)
  | [] => pure []
  | (s, keys) :: rest => do
    let a ← (ops s).getMulti keys
    let b ← askAll ops rest
    pure (a ++ b)

/-- The listed servers were called one after the other and all of these calls succeeded; `w`
is the world before, `w'` the world after. -/
inductive AllCalled {α : Type} (op : S → Act W α) : List (S × α) → W → W → Prop where
  | nil (w : W) : AllCalled op [] w w
  | cons {s : S} {a : α} {rest : List (S × α)} {w w1 w2 : W} (h : op s w = (.ok a, w1))
      (hr : AllCalled op rest w1 w2) : AllCalled op ((s, a) :: rest) w w2

/-- The servers a pool keeps: one for every configured name, the last one configured with it. -/
def Registered (name : S → Bytes) (servers : List S) (s : S) : Prop :=
  ∃ pre post, servers = pre ++ s :: post ∧ ∀ t ∈ post, name t ≠ name s

/-- Every configured server is the only one with its name. -/
def DistinctNames (name : S → Bytes) (servers : List S) : Prop :=
  ∀ a ∈ servers, ∀ b ∈ servers, name a = name b → a = b

end Spec
end Verif
