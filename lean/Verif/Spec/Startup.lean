import Verif.Proxy.Main
import Verif.Spec.Router
/-!
The start of a router as its operator knows it.
-/

namespace Verif
namespace Spec
open Proxy Pool Cluster

/-- The servers of a configuration, primaries first. -/
def configured (c : Config) : List ServerConf := c.primary ++ c.secondary

/-- All dials of the start succeed: the `i`-th goes to the address of the `i`-th server. -/
def AllReachable (dial : Nat → Bytes → Bool) (c : Config) : Prop :=
  ∀ i s, (configured c)[i]? = some s → dial i s.address = true

/-- The first `i` dials succeed, the next one does not. -/
def FirstDead (dial : Nat → Bytes → Bool) (c : Config) (i : Nat) : Prop :=
  (∃ s, (configured c)[i]? = some s ∧ dial i s.address = false)
  ∧ ∀ j s, j < i → (configured c)[j]? = some s → dial j s.address = true

/-- The connection `d` was made for server `s` of the configuration. -/
def Stands (d : Dialled) (s : ServerConf) : Prop := d.name = s.name ∧ d.address = s.address

/-- The connections `l` are those of the servers `ss`, in their order. -/
inductive StandAll : List Dialled → List ServerConf → Prop where
  | nil : StandAll [] []
  | cons {d : Dialled} {s : ServerConf} {l : List Dialled} {ss : List ServerConf} :
      Stands d s → StandAll l ss → StandAll (d :: l) (s :: ss)

/-- The server takes the whole process down when the call arrives: nothing is sent; `s'` is what the
handler has done until then. -/
def Crashes {σ α : Type} (h : Srv.Handler σ) (p : Srv.Protocol) (s : σ) (c : Call α) (s' : σ) : Prop :=
  ∃ wire, c.wire = .ok wire ∧ ∀ q rest, q = none ∨ q = some p →
    (Srv.serve h q s (wire ++ rest)).out = []
    ∧ (Srv.serve h q s (wire ++ rest)).state = s'
    ∧ (Srv.serve h q s (wire ++ rest)).fin = .crashed

/-- The outcome of picking, as the name of the server. -/
def nameOf : Res Dialled → Res Bytes
  | .ok d => .ok d.name
  | .err e => .err e
  | .panic => .panic

end Spec
end Verif
