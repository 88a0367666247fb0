import Verif.Props.Replica
/-!
C62: a single-key method of a `SinglePool` is one call of the same method, with the same
arguments, on the server the ring picks for the key, and returns what that call returns —
value, error or panic alike.  Servers are arbitrary; `logged E` is the same servers with a log of
the calls made on them.
-/

namespace Verif
namespace Props
open Pool Spec

variable {S W : Type}

/-- Running the method `call` of a pool makes exactly one call on a server, namely `o` on `s`;
`alone` is that call made directly on the server: results and effects are the same. -/
def OneCall {α : Type} (s : S) (o : Op) (alone : Act W α) (call : Act (W × List (S × Op)) α) : Prop :=
  ∀ w log, call (w, log) = ((alone w).1, ((alone w).2, log ++ [(s, o)]))

/-- C62: `Get` is one `Get` on the server of the key. -/
theorem C62_get (E : Env S W) (r : Ring S) (key : Bytes) (s : S) (hs : r.pick E.H key = .ok s) :
    OneCall s (Op.get key) ((E.ops s).get key) (Pool.get (logged E) r key) := by
  intro w log
  unfold Pool.get
  rw [onPicked_logged E _ _ s hs]
  rfl

/-- C62: `Set` is one `Set` on the server of the key. -/
theorem C62_set (E : Env S W) (r : Ring S) (item : Item) (s : S) (hs : r.pick E.H item.key = .ok s) :
    OneCall s (Op.set item) ((E.ops s).set item) (Pool.set (logged E) r item) := by
  intro w log
  unfold Pool.set
  rw [onPicked_logged E _ _ s hs]
  rfl

/-- C62: `Add` is one `Add` on the server of the key. -/
theorem C62_add (E : Env S W) (r : Ring S) (item : Item) (s : S) (hs : r.pick E.H item.key = .ok s) :
    OneCall s (Op.add item) ((E.ops s).add item) (Pool.add (logged E) r item) := by
  intro w log
  unfold Pool.add
  rw [onPicked_logged E _ _ s hs]
  rfl

/-- C62: `Replace` is one `Replace` on the server of the key. -/
theorem C62_replace (E : Env S W) (r : Ring S) (item : Item) (s : S) (hs : r.pick E.H item.key = .ok s) :
    OneCall s (Op.replace item) ((E.ops s).replace item) (Pool.replace (logged E) r item) := by
  intro w log
  unfold Pool.replace
  rw [onPicked_logged E _ _ s hs]
  rfl

/-- C62: `Delete` is one `Delete` on the server of the key. -/
theorem C62_delete (E : Env S W) (r : Ring S) (key : Bytes) (s : S) (hs : r.pick E.H key = .ok s) :
    OneCall s (Op.delete key) ((E.ops s).delete key) (Pool.delete (logged E) r key) := by
  intro w log
  unfold Pool.delete
  rw [onPicked_logged E _ _ s hs]
  rfl

/-- C62: `Increment` is one `Increment` on the server of the key. -/
theorem C62_increment (E : Env S W) (r : Ring S) (key : Bytes) (delta exp : Int) (s : S) (hs : r.pick E.H key = .ok s) :
    OneCall s (Op.increment key delta exp) ((E.ops s).increment key delta exp) (Pool.increment (logged E) r key delta exp) := by
  intro w log
  unfold Pool.increment
  rw [onPicked_logged E _ _ s hs]
  rfl

/-- C62: `Decrement` is one `Decrement` on the server of the key. -/
theorem C62_decrement (E : Env S W) (r : Ring S) (key : Bytes) (delta exp : Int) (s : S) (hs : r.pick E.H key = .ok s) :
    OneCall s (Op.decrement key delta exp) ((E.ops s).decrement key delta exp) (Pool.decrement (logged E) r key delta exp) := by
  intro w log
  unfold Pool.decrement
  rw [onPicked_logged E _ _ s hs]
  rfl

/-- C62: `Touch` is one `Touch` on the server of the key. -/
theorem C62_touch (E : Env S W) (r : Ring S) (key : Bytes) (exp : Int) (s : S) (hs : r.pick E.H key = .ok s) :
    OneCall s (Op.touch key exp) ((E.ops s).touch key exp) (Pool.touch (logged E) r key exp) := by
  intro w log
  unfold Pool.touch
  rw [onPicked_logged E _ _ s hs]
  rfl

/-- C62: every pool built from at least one server has a server for every key, one of those it
was built from, so that the theorems above apply to every key. -/
theorem C62_always (E : Env S W) {servers : List S} {r : Ring S} (hr : IsRing E.H E.name servers r)
    (hne : servers ≠ []) (key : Bytes) : ∃ s ∈ servers, r.pick E.H key = .ok s :=
  C05_member hr hne key

/-- C62: a pool without servers panics in every single-key method and calls nothing. -/
theorem C62_empty (E : Env S W) {r : Ring S} (hr : IsRing E.H E.name [] r) (key : Bytes) (item : Item)
    (delta exp : Int) (w : W) :
    Pool.get E r key w = (.panic, w) ∧ Pool.set E r item w = (.panic, w) ∧
    Pool.add E r item w = (.panic, w) ∧ Pool.replace E r item w = (.panic, w) ∧
    Pool.delete E r key w = (.panic, w) ∧ Pool.increment E r key delta exp w = (.panic, w) ∧
    Pool.decrement E r key delta exp w = (.panic, w) ∧ Pool.touch E r key exp w = (.panic, w) := by
  have hp : ∀ (α : Type) (k : Bytes) (op : ServerOps W → Act W α), onPicked E r k op w = (.panic, w) := by
    intro α k op
    unfold onPicked
    rw [C05_empty_panics hr k]
    rfl
  exact ⟨hp _ _ _, hp _ _ _, hp _ _ _, hp _ _ _, hp _ _ _, hp _ _ _, hp _ _ _, hp _ _ _⟩

/-! ### The hypotheses are met: one server, which refuses everything or accepts everything -/

/-- The log and the result of `Decrement` on a server that accepts and one that refuses. -/
example : Pool.decrement (logged { H := demoHashes, name := natDec, ops := demoOps })
      { nodes := [⟨0, 7⟩], servers := [0] } b!"k" 3 60 ((), [])
    = (.ok 5, ((), [(0, .decrement b!"k" 3 60)])) := by decide +kernel
example : Pool.touch (logged { H := demoHashes, name := natDec, ops := demoOps })
      { nodes := [⟨1, 7⟩], servers := [1] } b!"k" 60 ((), [])
    = (.err .io, ((), [(1, .touch b!"k" 60)])) := by decide +kernel

end Props
end Verif
