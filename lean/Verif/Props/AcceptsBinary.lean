import Verif.Spec.Accepts
import Verif.Props.Values
/-!
C70: the replies to Get and GetMulti the binary client accepts: exactly those of `Spec/Accepts.lean`.
-/

namespace Verif
namespace Props
open Spec

theorem sliceFrom_drop {b : Bytes} {n : Nat} {v : Bytes} : sliceFrom b n = .ok v ↔ n ≤ b.length ∧ v = b.drop n := by
  rw [sliceFrom_ok]
  constructor
  · rintro ⟨t, rfl, rfl⟩; simp
  · rintro ⟨h, rfl⟩; exact ⟨b.take n, (List.take_append_drop n b).symm, by rw [List.length_take]; omega⟩

theorem sliceTo_take {b : Bytes} {n : Nat} {v : Bytes} : sliceTo b n = .ok v ↔ n ≤ b.length ∧ v = b.take n := by
  rw [sliceTo_ok]
  constructor
  · rintro ⟨t, rfl, h⟩
    have : v.length = n := by omega
    subst this
    simp
  · rintro ⟨h, rfl⟩; exact ⟨b.drop n, (List.take_append_drop n b).symm, by rw [List.length_take]; omega⟩

theorem slice_take {b : Bytes} {m n : Nat} {v : Bytes} : slice b m n = .ok v ↔ m ≤ n ∧ n ≤ b.length ∧ v = (b.take n).drop m := by
  unfold slice
  split
  · rename_i h
    simp only [Res.ok.injEq]
    constructor
    · rintro rfl; exact ⟨h.1, h.2, rfl⟩
    · rintro ⟨_, _, rfl⟩; rfl
  · rename_i h
    constructor
    · intro h'; cases h'
    · rintro ⟨h1, h2, _⟩; exact absurd ⟨h1, h2⟩ h

/-- **C70**, binary Get: it returns an item exactly for a header with status 0 and a body long enough for the two
lengths in the header.  Neither the opcode nor the opaque nor a key in the body is looked at, the lengths are added in 16
bits. -/
theorem C70_binary_get (hd : Bin.ReqHdr) (k i r : Bytes) (item : Item) : (Bin.get hd k).rd i = (.ok item, r)
    ↔ ∃ h body, BinReply i h body r ∧ statusOf h = 0 ∧ valueFrom h ≤ body.length ∧ extraLenOf h ≤ body.length
        ∧ item = { key := k, value := body.drop (valueFrom h), flags := some (body.take (extraLenOf h)), cas := casOf h } := by
  show (Bin.readHdr >>= _) _ = _ ↔ _
  rw [hdr_iff (by simp) (by simp)]
  have hvs : ∀ h, (Bin.ResHdr.ofBytes h).valueStart = valueFrom h := fun h => rfl
  have hel : ∀ h, (Bin.ResHdr.ofBytes h).extraLength = extraLenOf h := fun h => rfl
  constructor
  · rintro ⟨h, r', rfl, hh, he⟩
    obtain ⟨b, r2, rfl, hl, he⟩ := (full_iff (by simp)).1 he
    rw [Rd.ite_apply'] at he
    split at he
    · rw [Rd.ite_apply'] at he
      split at he <;> simp at he
    · rename_i hs
      obtain ⟨v, hv, he⟩ := lift_ok_iff.1 he
      obtain ⟨f, hf, he⟩ := lift_ok_iff.1 he
      simp only [Rd.pure_apply, Prod.mk.injEq, Res.ok.injEq] at he
      obtain ⟨rfl, rfl⟩ := he
      obtain ⟨h1, rfl⟩ := sliceFrom_drop.1 hv
      obtain ⟨h2, rfl⟩ := sliceTo_take.1 hf
      exact ⟨h, b, ⟨by simp, hh, hl⟩, Decidable.not_not.1 hs, h1, h2, rfl⟩
  · rintro ⟨h, b, ⟨rfl, hh, hl⟩, hs, h1, h2, rfl⟩
    refine ⟨h, b ++ r, by simp, hh, (full_iff (by simp)).2 ⟨b, r, rfl, hl, ?_⟩⟩
    have hs' : (Bin.ResHdr.ofBytes h).status = 0 := hs
    rw [Rd.ite_apply', if_neg (by simp [hs'])]
    exact lift_ok_iff.2 ⟨_, sliceFrom_drop.2 ⟨h1, rfl⟩, lift_ok_iff.2 ⟨_, sliceTo_take.2 ⟨h2, rfl⟩, rfl⟩⟩

theorem binLoop_ok {n : Nat} {acc l : List Item} {i r : Bytes} (hn : i.length < n) :
    Bin.multiLoop n acc i = (.ok l, r) ↔ ∃ b items h, Blocks BinMultiBlock b items ∧ i = b ++ h ++ r ∧ BinHead h ∧ opcodeOf h = 10
      ∧ l = acc ++ items := by
  induction n generalizing acc i with
  | zero => omega
  | succ n ih =>
    unfold Bin.multiLoop
    rw [hdr_iff (by simp) (by simp)]
    constructor
    · rintro ⟨h, r', rfl, hh, he⟩
      rw [Rd.ite_apply'] at he
      split at he
      · rename_i ho
        simp only [Rd.pure_apply, Prod.mk.injEq, Res.ok.injEq] at he
        obtain ⟨rfl, rfl⟩ := he
        exact ⟨[], [], h, .nil, by simp, hh, ho, by simp⟩
      · rename_i ho
        rw [Rd.ite_apply'] at he
        split at he
        · simp at he
        · rename_i hs
          obtain ⟨body, r2, rfl, hl, he⟩ := (full_iff (by simp)).1 he
          obtain ⟨k, hk, he⟩ := lift_ok_iff.1 he
          obtain ⟨v, hv, he⟩ := lift_ok_iff.1 he
          obtain ⟨f, hf, he⟩ := lift_ok_iff.1 he
          obtain ⟨h1, h2, rfl⟩ := slice_take.1 hk
          obtain ⟨_, rfl⟩ := sliceFrom_drop.1 hv
          obtain ⟨_, rfl⟩ := sliceTo_take.1 hf
          obtain ⟨b, items, h', hbs, rfl, hh', ho', rfl⟩ := (ih (by
            have := hh.1
            simp only [List.length_append] at hn
            omega)).1 he
          refine ⟨_, _, h', .cons (.mk hh ho (Decidable.not_not.1 hs) hl h1 h2) hbs, by simp, hh', ho', ?_⟩
          rw [List.append_assoc]
          rfl
    · rintro ⟨b, items, h, hbs, rfl, hh, ho, rfl⟩
      cases hbs with
      | nil =>
        refine ⟨h, r, by simp, hh, ?_⟩
        rw [Rd.ite_apply', if_pos (by exact ho)]
        simp
      | @cons _ i' item items' hb hbs =>
        cases hb with
        | @mk h0 body hh0 ho0 hs0 hl0 h1 h2 =>
          refine ⟨h0, body ++ (i' ++ h ++ r), by simp, hh0, ?_⟩
          rw [Rd.ite_apply', if_neg (by exact ho0), Rd.ite_apply', if_neg (by
            have hs' : (Bin.ResHdr.ofBytes h0).status = 0 := hs0
            simp [hs'])]
          refine (full_iff (by simp)).2 ⟨body, _, rfl, hl0, lift_ok_iff.2 ⟨_, slice_take.2 ⟨h1, h2, rfl⟩,
            lift_ok_iff.2 ⟨_, sliceFrom_drop.2 ⟨h2, rfl⟩, lift_ok_iff.2 ⟨_, sliceTo_take.2 ⟨Nat.le_trans h1 h2, rfl⟩, ?_⟩⟩⟩⟩
          refine (ih ?_).2 ⟨i', items', h, hbs, rfl, hh, ho, ?_⟩
          · have := hh0.1
            simp only [List.length_append] at hn ⊢
            omega
          · rw [List.append_assoc]
            rfl

/-- **C70**, binary GetMulti: it returns items exactly for blocks followed by the header of a no-op reply, whatever the
status in that header; if the header announces a body, the body is left in the connection. -/
theorem C70_binary_getMulti (h1 h2 : Bin.ReqHdr) (ks : List Bytes) (i r : Bytes) (items : List Item) :
    (Bin.getMulti h1 h2 ks).rd i = (.ok items, r)
      ↔ ∃ b h, Blocks BinMultiBlock b items ∧ i = b ++ h ++ r ∧ BinHead h ∧ opcodeOf h = 10 := by
  show Bin.multiLoop (i.length + 1) [] i = _ ↔ _
  rw [binLoop_ok (by omega)]
  constructor
  · rintro ⟨b, its, h, e1, e2, e3, e4, rfl⟩; exact ⟨b, h, by simpa using e1, e2, e3, e4⟩
  · rintro ⟨b, h, e1, e2, e3, e4⟩; exact ⟨b, items, h, e1, e2, e3, e4, by simp⟩

/-- **C70**: the reply to another request - here, with any opcode and any opaque - is taken for the reply to a binary
Get, if its status is 0. -/
theorem C70_binary_other (hd : Bin.ReqHdr) (k r : Bytes) (op : UInt8) (opaque' : Bytes) (ho : opaque'.length = 4) :
    (Bin.get hd k).rd ([0x81, op, 0, 0, 0, 0, 0, 0, 0, 0, 0, 0] ++ opaque' ++ [0, 0, 0, 0, 0, 0, 0, 7] ++ r)
      = (.ok { key := k, value := [], flags := some [], cas := 7 }, r) := by
  match opaque', ho with
  | [a, b, c, d], _ =>
    refine (C70_binary_get hd k _ r _).2 ⟨[0x81, op, 0, 0, 0, 0, 0, 0, 0, 0, 0, 0, a, b, c, d, 0, 0, 0, 0, 0, 0, 0, 7], [],
      ⟨by simp, ⟨rfl, rfl⟩, by simp [bodyLenOf, getBE]⟩, by simp [statusOf, getBE],
      by simp [valueFrom, extraLenOf, keyLenOf, getBE], by simp [extraLenOf], ?_⟩
    simp [valueFrom, extraLenOf, casOf, getBE]

/-- A concrete reply to GetMulti: one value with a key, then the no-op with a status that is not looked at. -/
example : (Bin.getMulti {} {} [b!"k"]).rd
    ([0x81, 13, 0, 1, 4, 0, 0, 0, 0, 0, 0, 7, 0, 0, 0, 0, 0, 0, 0, 0, 0, 0, 0, 9] ++ [0, 0, 0, 5] ++ b!"k" ++ b!"hi"
      ++ [0x81, 10, 0, 0, 0, 0, 0, 129, 0, 0, 0, 0, 0, 0, 0, 0, 0, 0, 0, 0, 0, 0, 0, 0] ++ b!"rest")
    = (.ok [{ key := b!"k", value := b!"hi", flags := some [0, 0, 0, 5] }], b!"rest") := by decide +kernel

end Props
end Verif
