import Verif.Pool.Single
import Verif.Spec.Api
/-! Observation of the calls made on servers: any servers, with every call written to a log. -/

namespace Verif
namespace Spec
open Pool

variable {S W : Type}

/-- Run `m` and note that server `s` was called with `o`. -/
def noted {α : Type} (s : S) (o : Op) (m : Act W α) : Act (W × List (S × Op)) α := fun w =>
  ((m w.1).1, ((m w.1).2, w.2 ++ [(s, o)]))

/-- The same servers, with a log of the calls made on them. -/
def logged (E : Env S W) : Env S (W × List (S × Op)) where
  H := E.H
  name := E.name
  ops s :=
    { get := fun k => noted s (.get k) ((E.ops s).get k)
      getMulti := fun ks => noted s (.getMulti ks) ((E.ops s).getMulti ks)
      set := fun i => noted s (.set i) ((E.ops s).set i)
      add := fun i => noted s (.add i) ((E.ops s).add i)
      replace := fun i => noted s (.replace i) ((E.ops s).replace i)
      delete := fun k => noted s (.delete k) ((E.ops s).delete k)
      increment := fun k d e => noted s (.increment k d e) ((E.ops s).increment k d e)
      decrement := fun k d e => noted s (.decrement k d e) ((E.ops s).decrement k d e)
      touch := fun k e => noted s (.touch k e) ((E.ops s).touch k e)
      flush := noted s .flush (E.ops s).flush
      version := fun w => (((E.ops s).version w.1).1, ((E.ops s).version w.1).2, w.2)
      close := fun w => (((E.ops s).close w.1).1, ((E.ops s).close w.1).2, w.2) }

end Spec
end Verif
