import Verif.Lemmas.ClientStable
/-!
C22: a reply that is cut off before the last byte the operation reads never gives a result.
-/

namespace Verif
namespace Props
open Spec Mc

/-- Whatever the outcome `x` of the call on the stream `i`, of which it leaves `r` unread: on every
prefix `p` of the stream that ends before the point reached, the call returns the error of the
connection. -/
def CutFails {α : Type} (c : Call α) : Prop :=
  ∀ i x r, c.rd i = (x, r) → ∀ p, p <+: i → p.length + r.length < i.length → (c.rd p).1 = .err .io

theorem Stable.cutFails {α : Type} {c : Call α} (h : Stable c.rd) : CutFails c := by
  rintro i x r hi p ⟨t, rfl⟩ hl
  apply Classical.byContradiction
  intro hne
  have := h p t hne
  rw [hi] at this
  have h2 : r = (c.rd p).2 ++ t := congrArg Prod.snd this
  rw [h2] at hl
  simp at hl
  omega

/-- C22 for every operation of a text connection. -/
theorem C22_text (name : Bytes) (op : Op) : CutFails (textCall name op) := Stable.cutFails (stable_textCall name op)
/-- C22 for every operation of a meta connection. -/
theorem C22_meta (op : Op) : CutFails (metaCall op) := Stable.cutFails (stable_metaCall op)
/-- C22 for every operation of a binary connection. -/
theorem C22_binary (h1 h2 : Bin.ReqHdr) (op : Op) : CutFails (binCall h1 h2 op) :=
  Stable.cutFails (stable_binCall h1 h2 op)
/-- C22 for `Version`. -/
theorem C22_version (h : Bin.ReqHdr) : CutFails Text.version ∧ CutFails Meta.version ∧ CutFails (Bin.version h) :=
  ⟨Stable.cutFails stable_text_version, Stable.cutFails stable_meta_version, Stable.cutFails (stable_bin_version h)⟩

/-- An empty stream gives an error for every operation (the connection was closed before the reply). -/
theorem C22_no_reply (name : Bytes) (h1 h2 : Bin.ReqHdr) (op : Op) :
    ((textCall name op).rd []).1 = .err .io ∧ ((metaCall op).rd []).1 = .err .io
      ∧ ((binCall h1 h2 op).rd []).1 = .err .io := by
  cases op <;> exact ⟨rfl, rfl, rfl⟩

/-- Non-vacuity: cutting the reply of a text Get anywhere. -/
example (p : Bytes) (h : p <+: b!"VALUE k 0 3 7\r\nabc\r\nEND\r\n") (hl : p.length < 25) :
    ((textCall b!"s" (.get b!"k")).rd p).1 = .err .io := by
  refine C22_text b!"s" (.get b!"k") b!"VALUE k 0 3 7\r\nabc\r\nEND\r\n" ?x [] ?e p h hl
  case x => exact .ok (.item { key := b!"k", value := b!"abc", flags := some [0, 0, 0, 0], cas := 7, server := b!"s" })
  case e => decide +kernel

end Props
end Verif
