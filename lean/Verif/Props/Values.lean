import Verif.Lemmas.Reply
import Verif.Lemmas.TextReply
import Verif.Lemmas.MetaReply
import Verif.Lemmas.ClientStable
/-!
C23: a returned value is exactly the announced number of bytes that follow the header, verbatim.
-/

namespace Verif
namespace Props
open Spec

/-- The general form, for any header line: the value is followed by two bytes (not looked at) and `END`. -/
theorem text_get_ok (name k i r : Bytes) (item : Item) : (Text.get name k).rd i = (.ok item, r)
    ↔ ∃ hdr pad flags, i = hdr ++ item.value ++ pad ++ b!"END\r\n" ++ r ∧ Line hdr ∧ hdr.length ≤ 4096
        ∧ pad.length = 2 ∧ hdr ≠ Text.msgEnd ∧ hasPrefix hdr b!"VALUE" = true
        ∧ Scan.scanValue (hdr.count 32 != 3) hdr = some (item.key, flags, (item.value.length : Int), item.cas)
        ∧ item.flags = some (putBE 4 flags) ∧ item.server = name ∧ item.expiration = 0
        ∧ item.value.length + 2 ≤ maxAlloc := by
  show (readSlice >>= _) i = _ ↔ _
  rw [line_iff (by simp)]
  constructor
  · rintro ⟨l, r', ⟨rfl, hl, hlen⟩, he⟩
    rw [Rd.ite_apply'] at he
    split at he
    · simp at he
    · rename_i h1
      rw [Rd.ite_apply'] at he
      split at he
      · simp at he
      · rename_i h2
        cases hs : Scan.scanValue (l.count 32 != 3) l with
        | none => rw [hs] at he; simp at he
        | some q =>
          obtain ⟨key, flags, size, cas⟩ := q
          rw [hs] at he
          obtain ⟨buf, r2, rfl, hb, hm, he2⟩ := n_ok_iff.1 he
          obtain ⟨v, hv0, he3⟩ := lift_ok_iff.1 he2
          obtain ⟨pad, rfl, hv⟩ := sliceTo_ok.1 hv0
          obtain ⟨e, r3, ⟨rfl, _, _⟩, he4⟩ := (line_iff (by simp)).1 he3
          simp only [Rd.ite_apply', Rd.fail_apply, Rd.pure_apply] at he4
          split at he4
          · simp at he4
          · rename_i h3
            simp only [Prod.mk.injEq, Res.ok.injEq] at he4
            obtain ⟨rfl, rfl⟩ := he4
            have h3' : e = b!"END\r\n" := Decidable.not_not.1 h3
            subst h3'
            refine ⟨l, pad, flags, by simp, hl, hlen, ?_, h1, by simpa using h2, ?_, rfl, rfl, rfl, ?_⟩
            · simp at hb; omega
            · dsimp only; rw [hs, hv]
            · simp at hb hm; dsimp only; omega
  · rintro ⟨hdr, pad, flags, rfl, hl, hlen, hp, h1, h2, hs, hf, hn, hx, hm⟩
    refine ⟨hdr, item.value ++ pad ++ b!"END\r\n" ++ r, ⟨by simp, hl, hlen⟩, ?_⟩
    rw [Rd.ite_apply', if_neg h1, Rd.ite_apply', if_neg (by simp [h2]), hs]
    refine n_ok_iff.2 ⟨item.value ++ pad, b!"END\r\n" ++ r, by simp, by simp [hp], by simp [hp]; omega, ?_⟩
    refine lift_ok_iff.2 ⟨item.value, sliceTo_ok.2 ⟨pad, rfl, rfl⟩, ?_⟩
    rw [Rd.bind_of_ok (readSlice_end r)]
    simp only [Rd.ite_apply', Rd.pure_apply]
    rw [if_neg (by simp [Text.msgEnd])]
    obtain ⟨a, b, c, d, e, f⟩ := item
    simp only at hf hn hx
    subst hf hn hx
    rfl

/-- C23, text Get: after a header line `VALUE <key> <flags> <size> [<cas>]` the operation succeeds
exactly when `size` bytes, two more bytes and `END` follow, and then the value is those `size`
bytes, whatever they are. -/
theorem C23_text_get (name k key : Bytes) (hk : TextKey key) (hl : key.length ≤ 4000) (flags size : Nat)
    (hf : flags < 2 ^ 32) (hs : size + 2 ≤ maxAlloc) (cas : Option Nat) (hc : ∀ c, cas = some c → c < 2 ^ 64)
    (s r : Bytes) (item : Item) :
    (Text.get name k).rd (valueLine key flags size cas ++ s) = (.ok item, r)
      ↔ ∃ value pad, s = value ++ pad ++ b!"END\r\n" ++ r ∧ value.length = size ∧ pad.length = 2
        ∧ item = { key := key, value := value, flags := some (putBE 4 flags), cas := cas.getD 0, server := name } := by
  have hsc := scanValue_line key hk flags size hf (pow63_alloc hs) cas hc
  have hline := readSlice_iff.1 (readSlice_valueLine key hk.plain.2 hl flags size hf (pow63_alloc hs) cas hc s)
  constructor
  · intro h
    obtain ⟨hdr, pad, fl, e, h1, h2, h3, h4, h5, h6, h7, h8, h9, h10⟩ := (text_get_ok name k _ r item).1 h
    have hu : Reply (valueLine key flags size cas ++ s) hdr (item.value ++ pad ++ b!"END\r\n" ++ r) :=
      ⟨by rw [e]; simp, h1, h2⟩
    have := (readSlice_iff.2 hline).symm.trans (readSlice_iff.2 hu)
    simp only [Prod.mk.injEq, Res.ok.injEq] at this
    obtain ⟨hh, rfl⟩ := this
    rw [← hh, hsc] at h6
    simp only [Option.some.injEq, Prod.mk.injEq] at h6
    obtain ⟨a1, a2, a3, a4⟩ := h6
    refine ⟨item.value, pad, rfl, by omega, h3, ?_⟩
    obtain ⟨a, b, c, d, e, f⟩ := item
    simp only at h7 h8 h9 a1 a4
    subst h7 h8 h9 a1 a4 a2
    rfl
  · rintro ⟨value, pad, rfl, hv, hp, rfl⟩
    refine (text_get_ok name k _ r _).2 ⟨valueLine key flags size cas, pad, flags, by simp, hline.2.1, hline.2.2, hp,
      valueLine_ne_end _ _ _ _, valueLine_prefix _ _ _ _, ?_, rfl, rfl, rfl, by dsimp only; omega⟩
    rw [hsc, ← hv]

/-- The lists correspond element by element. -/
inductive Zip (R : α → β → Prop) : List α → List β → Prop
  | nil : Zip R [] []
  | cons {a : α} {b : β} {l₁ : List α} {l₂ : List β} : R a b → Zip R l₁ l₂ → Zip R (a :: l₁) (b :: l₂)

/-- One block of a text GetMulti reply. -/
structure RawBlock where
  hdr : Bytes
  value : Bytes
  pad : Bytes

def RawBlock.bytes (b : RawBlock) : Bytes := b.hdr ++ b.value ++ b.pad

/-- The block announces its value's length and holds the item's key and flags. -/
def RawBlock.Holds (b : RawBlock) (item : Item) : Prop :=
  Line b.hdr ∧ b.pad.length = 2 ∧ item.value = b.value
    ∧ ∀ key flags size cas, Plain key → flags < 2 ^ 32 → size + 2 ≤ maxAlloc →
        b.hdr = valueLine key flags size cas →
        b.value.length = size ∧ item.key = key ∧ item.flags = some (putBE 4 flags)

/-- What a header line announces, or the failure it selects. -/
def blockHead (l : Bytes) : Res (Bytes × Bytes × Int × Nat) :=
  if (splitSp l).head? ≠ some b!"VALUE" then .err errInvalidResponse
  else
    index (splitSp l) 2 >>= fun s2 =>
    numRes (parseInt s2 64) >>= fun f =>
    index (splitSp l) 3 >>= fun s3 =>
    (if (splitSp l).length = 4 then sliceTo s3 (s3.length - 2) else pure s3) >>= fun sz =>
    numRes (parseInt sz 64) >>= fun size =>
    makeLen (size + 2) >>= fun k =>
    index (splitSp l) 1 >>= fun s1 =>
    pure (s1, putBE 4 (toUnsigned 32 f), size, k)

theorem parseBlock_eq (l j : Bytes) : Text.parseBlock l j
    = (Rd.lift (blockHead l) >>= fun q => readFull q.2.2.2 >>= fun buf => Rd.lift (sliceTo buf q.2.2.1) >>= fun v =>
        (pure { key := q.1, flags := some q.2.1, value := v } : Rd Item)) j := by
  unfold Text.parseBlock blockHead
  simp only [Rd.ite_apply']
  split
  · rfl
  · rcases index (splitSp l) 2 with s2 | _ | _
    rotate_left
    · rfl
    · rfl
    rw [Rd.bind_of_ok (Rd.lift_apply _ _), Res.bind_ok]
    rcases numRes (parseInt s2 64) with f | _ | _
    rotate_left
    · rfl
    · rfl
    rw [Rd.bind_of_ok (Rd.lift_apply _ _), Res.bind_ok]
    rcases index (splitSp l) 3 with s3 | _ | _
    rotate_left
    · rfl
    · rfl
    rw [Rd.bind_of_ok (Rd.lift_apply _ _), Res.bind_ok]
    have fin : ∀ sz : Bytes, ((do
              let size ← Rd.lift (numRes (parseInt sz 64))
              let k ← Rd.lift (makeLen (size + 2))
              let s1 ← Rd.lift (index (splitSp l) 1)
              let buf ← readFull k
              let v ← Rd.lift (sliceTo buf size)
              pure { key := s1, flags := some (putBE 4 (toUnsigned 32 f)), value := v } : Rd Item)) j
        = (Rd.lift (numRes (parseInt sz 64) >>= fun size =>
            makeLen (size + 2) >>= fun k =>
            index (splitSp l) 1 >>= fun s1 =>
            (pure (s1, putBE 4 (toUnsigned 32 f), size, k) : Res (Bytes × Bytes × Int × Nat))) >>= fun q =>
            readFull q.2.2.2 >>= fun buf => Rd.lift (sliceTo buf q.2.2.1) >>= fun v =>
            (pure { key := q.1, flags := some q.2.1, value := v } : Rd Item)) j := by
      intro sz
      rcases numRes (parseInt sz 64) with size | _ | _
      rotate_left
      · rfl
      · rfl
      rw [Rd.bind_of_ok (Rd.lift_apply _ _), Res.bind_ok]
      rcases makeLen (size + 2) with k | _ | _
      rotate_left
      · rfl
      · rfl
      rw [Rd.bind_of_ok (Rd.lift_apply _ _), Res.bind_ok]
      rcases index (splitSp l) 1 with s1 | _ | _
      rotate_left
      · rfl
      · rfl
      rw [Rd.bind_of_ok (Rd.lift_apply _ _), Res.bind_ok]
      exact (Rd.bind_of_ok (Rd.lift_apply _ _)).symm
    rw [Rd.ite_apply']
    split
    · rcases sliceTo s3 (s3.length - 2) with sz | _ | _
      rotate_left
      · rfl
      · rfl
      rw [Rd.bind_of_ok (Rd.lift_apply _ _), Res.bind_ok]
      exact fin sz
    · exact fin s3

/-- The body reader a header line selects, or a failure. -/
theorem parseBlock_eval (l : Bytes) :
    (∃ key f size k, makeLen (size + 2) = .ok k ∧ ∀ j, Text.parseBlock l j
        = (readFull k >>= fun buf => (Rd.lift (sliceTo buf size) >>= fun v =>
              (pure { key := key, flags := some f, value := v } : Rd Item))) j)
    ∨ ∃ x, (∀ j, Text.parseBlock l j = (x, j)) ∧ ∀ a, x ≠ .ok a := by
  cases hb : blockHead l with
  | err e => exact .inr ⟨.err e, fun j => by rw [parseBlock_eq, hb]; rfl, by simp⟩
  | panic => exact .inr ⟨.panic, fun j => by rw [parseBlock_eq, hb]; rfl, by simp⟩
  | ok q =>
    refine .inl ⟨q.1, q.2.1, q.2.2.1, q.2.2.2, ?_, fun j => by
      rw [parseBlock_eq, hb, Rd.bind_of_ok (Rd.lift_apply _ _)]⟩
    have tok : ∀ {α : Type} {a : Res α} {g : α → Res (Bytes × Bytes × Int × Nat)}, (a >>= g) = .ok q → ∃ v, a = .ok v ∧ g v = .ok q := by
      intro α a g h
      cases a with
      | ok a => exact ⟨a, rfl, h⟩
      | err e => simp at h
      | panic => simp at h
    unfold blockHead at hb
    split at hb
    · simp at hb
    · obtain ⟨_, _, hb⟩ := tok hb
      obtain ⟨_, _, hb⟩ := tok hb
      obtain ⟨_, _, hb⟩ := tok hb
      obtain ⟨_, _, hb⟩ := tok hb
      obtain ⟨_, _, hb⟩ := tok hb
      obtain ⟨_, hk, hb⟩ := tok hb
      obtain ⟨_, _, hb⟩ := tok hb
      simp only [Res.pure_eq, Res.ok.injEq] at hb
      subst hb
      exact hk

theorem body_ok {key f : Bytes} {size : Int} {k : Nat} (hk : makeLen (size + 2) = .ok k) {j r : Bytes} {item : Item} :
    (readFull k >>= fun buf => (Rd.lift (sliceTo buf size) >>= fun v =>
        (pure { key := key, flags := some f, value := v } : Rd Item))) j = (.ok item, r)
      ↔ ∃ value pad, j = value ++ pad ++ r ∧ (value.length : Int) = size ∧ pad.length = 2
        ∧ item = { key := key, flags := some f, value := value } := by
  obtain ⟨h1, h2⟩ := makeLen_ok.1 hk
  rw [full_iff (by simp)]
  constructor
  · rintro ⟨buf, r', rfl, hb, h3⟩
    obtain ⟨v, hv0, h4⟩ := lift_ok_iff.1 h3
    obtain ⟨pad, rfl, hv⟩ := sliceTo_ok.1 hv0
    simp only [Rd.pure_apply, Prod.mk.injEq, Res.ok.injEq] at h4
    obtain ⟨rfl, rfl⟩ := h4
    simp only [List.length_append] at hb
    exact ⟨v, pad, rfl, hv, by omega, rfl⟩
  · rintro ⟨value, pad, rfl, hv, hp, rfl⟩
    refine ⟨value ++ pad, r, rfl, by simp; omega, lift_ok_iff.2 ⟨value, sliceTo_ok.2 ⟨pad, rfl, hv⟩, rfl⟩⟩

theorem parseBlock_ok {l i r : Bytes} {item : Item} (hl : Line l) (h : Text.parseBlock l i = (.ok item, r)) :
    ∃ value pad, i = value ++ pad ++ r ∧ (RawBlock.mk l value pad).Holds item := by
  rcases parseBlock_eval l with ⟨key, f, size, k, hk, he⟩ | ⟨x, he, hx⟩
  · rw [he, body_ok hk] at h
    obtain ⟨value, pad, rfl, hv, hp, rfl⟩ := h
    refine ⟨value, pad, rfl, hl, hp, rfl, ?_⟩
    intro key' flags sz' cas hkey hflags hsz heq
    dsimp only at heq ⊢
    subst heq
    have h1 := text_parseBlock ⟨key', flags, List.replicate sz' 0, cas⟩ hkey hflags (by simpa using hsz) []
    simp only [List.length_replicate] at h1
    rw [he, body_ok hk] at h1
    obtain ⟨v2, p2, e1, e2, e3, e4⟩ := h1
    simp only [Item.mk.injEq, Option.some.injEq, and_true] at e4
    obtain ⟨e5, e6, e7⟩ := e4
    rw [← e6, List.length_replicate] at e2
    exact ⟨by omega, e5.symm, by rw [e7]⟩
  · rw [he] at h
    simp only [Prod.mk.injEq] at h
    exact absurd h.1 (hx item)

/-- C23, text GetMulti: the reply consists of blocks, the items are the blocks' values in order, and
`END` follows. -/
theorem C23_text_getMulti (name : Bytes) (ks : List Bytes) (i r : Bytes) (items : List Item)
    (h : (Text.getMulti name ks).rd i = (.ok items, r)) :
    ∃ blocks : List RawBlock, i = blocks.flatMap RawBlock.bytes ++ b!"END\r\n" ++ r
      ∧ Zip RawBlock.Holds blocks items := by
  have hloop : ∀ n acc i l, Text.parseLoop n acc i = (.ok l, r) →
      ∃ blocks its, i = List.flatMap RawBlock.bytes blocks ++ b!"END\r\n" ++ r ∧ l = acc ++ its
        ∧ Zip RawBlock.Holds blocks its := by
    intro n
    induction n with
    | zero => intro acc i l h; simp [Text.parseLoop] at h
    | succ n ih =>
      intro acc i l h
      unfold Text.parseLoop at h
      obtain ⟨b, r', ⟨rfl, hb, hlen⟩, h3⟩ := (line_iff (by simp)).1 h
      rw [Rd.ite_apply'] at h3
      split at h3
      · rename_i he
        simp only [Rd.pure_apply, Prod.mk.injEq, Res.ok.injEq] at h3
        obtain ⟨rfl, rfl⟩ := h3
        subst he
        exact ⟨[], [], by simp [Text.msgEnd], by simp, .nil⟩
      · rw [Rd.bind_apply] at h3
        cases hq : Text.parseBlock b r' with
        | mk x r2 =>
          rw [hq] at h3
          cases x with
          | err e => simp at h3
          | panic => simp at h3
          | ok item =>
            obtain ⟨value, pad, rfl, hh⟩ := parseBlock_ok hb hq
            obtain ⟨bs, its, rfl, rfl, hf⟩ := ih _ _ _ h3
            exact ⟨⟨b, value, pad⟩ :: bs, item :: its, by simp [RawBlock.bytes], by simp, .cons hh hf⟩
  have h' : (Text.parseGetResponse >>= fun items => (pure (items.map (fun v => { v with server := name })) : Rd _)) i
      = (.ok items, r) := h
  rw [Rd.bind_apply] at h'
  cases hq : Text.parseGetResponse i with
  | mk x r2 =>
    rw [hq] at h'
    cases x with
    | err e => simp at h'
    | panic => simp at h'
    | ok l =>
      simp only [Rd.pure_apply, Prod.mk.injEq, Res.ok.injEq] at h'
      obtain ⟨rfl, rfl⟩ := h'
      obtain ⟨bs, its, h1, h2, h3⟩ := hloop _ _ _ _ hq
      refine ⟨bs, h1, ?_⟩
      rw [h2]
      clear h1 h2 hq h
      simp only [List.nil_append]
      induction h3 with
      | nil => exact .nil
      | cons hh _ ih => exact .cons hh ih

/-- Non-vacuity: values made of protocol words. -/
example : (Text.getMulti b!"s" [b!"a", b!"b"]).rd b!"VALUE a 0 5\r\nEND\r\n\r\nVALUE b 1 0\r\n\r\nEND\r\nrest"
    = (.ok [{ key := b!"a", value := b!"END\r\n", flags := some [0, 0, 0, 0], server := b!"s" },
            { key := b!"b", value := [], flags := some [0, 0, 0, 1], server := b!"s" }], b!"rest") := by
  decide +kernel

/-! ### Meta -/

theorem hdrStep_size {st st' : Meta.HdrState} {c : UInt8} (h : Meta.hdrStep st c = .ok st') (hs : st.state ≠ 1) :
    st'.size = st.size ∧ st'.state ≠ 1 := by
  have tok : ∀ {g : Item → Res Meta.HdrState} {r : Res Item}, (r >>= g) = .ok st' → ∃ a, g a = .ok st' := by
    intro g r h
    cases r with
    | ok a => exact ⟨a, h⟩
    | err e => simp at h
    | panic => simp at h
  unfold Meta.hdrStep at h
  dsimp only at h
  split at h
  · split at h
    · obtain ⟨a, h⟩ := tok h
      simp only [Res.pure_eq, Res.ok.injEq] at h
      subst h
      exact ⟨rfl, by simp⟩
    · simp only [Res.pure_eq, Res.ok.injEq] at h
      subst h
      exact ⟨rfl, hs⟩
  · split at h
    · split at h
      · obtain ⟨a, h⟩ := tok h
        simp only [Res.pure_eq, Res.ok.injEq] at h
        subst h
        exact ⟨rfl, hs⟩
      · simp only [Res.pure_eq, Res.ok.injEq] at h
        subst h
        exact ⟨rfl, hs⟩
    · split at h
      · split at h
        · simp only [Res.pure_eq, Res.ok.injEq] at h
          subst h
          exact ⟨rfl, by simp⟩
        · simp only [Res.pure_eq, Res.ok.injEq] at h
          subst h
          exact ⟨rfl, hs⟩
      · simp only [Res.pure_eq, Res.ok.injEq] at h
        subst h
        exact ⟨rfl, hs⟩

theorem hdrScan_size {st st' : Meta.HdrState} {b : Bytes} (h : Meta.hdrScan st b = .ok st') (hs : st.state ≠ 1) :
    st'.size = st.size := by
  induction b generalizing st with
  | nil => simp [Meta.hdrScan] at h; rw [h]
  | cons c cs ih =>
    unfold Meta.hdrScan at h
    cases hq : Meta.hdrStep st c with
    | err e => rw [hq] at h; simp at h
    | panic => rw [hq] at h; simp at h
    | ok s =>
      rw [hq] at h
      obtain ⟨h1, h2⟩ := hdrStep_size hq hs
      rw [ih h h2, h1]

/-- A complete `VA` reply. -/
theorem meta_parse_ok (i r : Bytes) (item : Item) (h : Meta.parseGetResponse i = (.ok item, r)) :
    ∃ hdr pad st, i = hdr ++ item.value ++ pad ++ r ∧ Line hdr ∧ hdr.length ≤ 4096 ∧ pad.length = 2
      ∧ b!"VA" <+: hdr ∧ Meta.hdrScan {} (hdr.drop 3) = .ok st ∧ st.size = item.value.length
      ∧ item = { st.item with value := item.value } := by
  have h' : (readSlice >>= _) i = (Res.ok item, r) := h
  obtain ⟨l, r', ⟨rfl, hl, hlen⟩, he⟩ := (line_iff (by simp)).1 h'
  simp only [Rd.ite_apply', Rd.fail_apply] at he
  split at he
  · simp at he
  · split at he
    · simp at he
    · split at he
      · simp at he
      · rename_i hp
        obtain ⟨body, hb, he1⟩ := lift_ok_iff.1 he
        obtain ⟨st, hst, he2⟩ := lift_ok_iff.1 he1
        obtain ⟨buf, r2, rfl, hbl, hm, he3⟩ := n_ok_iff.1 he2
        obtain ⟨v, hv0, he4⟩ := lift_ok_iff.1 he3
        obtain ⟨pad, rfl, hv⟩ := sliceTo_ok.1 hv0
        simp only [Rd.pure_apply, Prod.mk.injEq, Res.ok.injEq] at he4
        obtain ⟨rfl, rfl⟩ := he4
        obtain ⟨t, rfl, ht⟩ := sliceFrom_ok.1 hb
        refine ⟨t ++ body, pad, st, by simp, hl, hlen, ?_, ?_, ?_, by dsimp only; omega, rfl⟩
        · simp at hbl; omega
        · have : hasPrefix (t ++ body) b!"VA" = true := by simpa using hp
          exact List.isPrefixOf_iff_prefix.1 this
        · rw [← ht, List.drop_left]; exact hst

/-- C23, meta Get: the value is the bytes after the header line, followed by two bytes; and if the
header line is `VA <n> <tokens>` it is exactly `n` bytes. -/
theorem C23_meta_get (k i r : Bytes) (item : Item) (h : (Meta.get k).rd i = (.ok item, r)) :
    ∃ hdr pad, i = hdr ++ item.value ++ pad ++ r ∧ Line hdr ∧ pad.length = 2 ∧ item.key = k
      ∧ ∀ n toks, hdr = b!"VA " ++ natDec n ++ 32 :: toks → item.value.length = n := by
  have h' : (Meta.parseGetResponse >>= fun item => (pure { item with key := k } : Rd Item)) i = (.ok item, r) := h
  rw [Rd.bind_apply] at h'
  cases hq : Meta.parseGetResponse i with
  | mk x r2 =>
    rw [hq] at h'
    cases x with
    | err e => simp at h'
    | panic => simp at h'
    | ok it =>
      simp only [Rd.pure_apply, Prod.mk.injEq, Res.ok.injEq] at h'
      obtain ⟨rfl, rfl⟩ := h'
      obtain ⟨hdr, pad, st, e, h1, h2, h3, h4, h5, h6, h7⟩ := meta_parse_ok i r2 it hq
      refine ⟨hdr, pad, e, h1, h3, rfl, ?_⟩
      rintro n toks rfl
      have e2 : (b!"VA " ++ natDec n ++ 32 :: toks).drop 3 = natDec n ++ 32 :: toks := by simp
      rw [e2, Meta.hdrScan_run {} (natDec n) _ (by decide)
        (fun b hb => ⟨fun h => natDec_no32 n (h ▸ hb), fun h => natDec_no n 13 (by decide) (h ▸ hb)⟩)] at h5
      by_cases hn : n < 2 ^ 31
      · have hstep : Meta.hdrStep { num := natDec n, tok := natDec n } 32
            = .ok { state := 2, size := (n : Int), num := natDec n ++ [32], tok := natDec n ++ [32] } := by
          unfold Meta.hdrStep
          dsimp only
          rw [if_pos rfl, if_pos rfl, parseInt_natDec n 32 hn (by omega)]
          rfl
        unfold Meta.hdrScan at h5
        simp only [List.nil_append] at h5
        rw [hstep] at h5
        have := hdrScan_size (st := { state := 2, size := (n : Int), num := natDec n ++ [32], tok := natDec n ++ [32] })
          h5 (by simp)
        rw [h6] at this
        dsimp only at this ⊢
        omega
      · exfalso
        have hstep : Meta.hdrStep { num := natDec n, tok := natDec n } 32 = .err .num := by
          unfold Meta.hdrStep
          dsimp only
          rw [if_pos rfl, if_pos rfl, parseInt_natDec_ge n 32 (by simpa using hn)]
          rfl
        unfold Meta.hdrScan at h5
        simp only [List.nil_append] at h5
        rw [hstep] at h5
        simp at h5

/-- C23 fails for a `VA` line without tokens: whatever size it announces, the value is empty and only
two bytes of the data are read. -/
theorem C23_meta_no_tokens (k : Bytes) (n : Nat) (hn : n < 2 ^ 64) (a b : UInt8) (rest : Bytes) :
    (Meta.get k).rd (b!"VA " ++ natDec n ++ b!"\r\n" ++ a :: b :: rest) = (.ok { key := k }, rest) := by
  have hline : readSlice (b!"VA " ++ natDec n ++ b!"\r\n" ++ a :: b :: rest)
      = (.ok (b!"VA " ++ natDec n ++ b!"\r\n"), a :: b :: rest) := by
    refine readSlice_iff.2 ⟨rfl, ⟨b!"VA " ++ natDec n ++ b!"\r", by simp, ?_⟩, ?_⟩
    · simp [natDec_no10]
    · have := natDec_length64 n hn
      simp; omega
  have hscan : Meta.hdrScan {} (natDec n ++ b!"\r\n")
      = .ok { num := natDec n ++ b!"\r\n", tok := natDec n ++ b!"\r\n" } := by
    rw [Meta.hdrScan_run {} (natDec n) _ (by decide)
        (fun b hb => ⟨fun h => natDec_no32 n (h ▸ hb), fun h => natDec_no n 13 (by decide) (h ▸ hb)⟩)]
    simp [Meta.hdrScan, Meta.hdrStep]
  show (Meta.parseGetResponse >>= _) _ = _
  have hp : Meta.parseGetResponse (b!"VA " ++ natDec n ++ b!"\r\n" ++ a :: b :: rest) = (.ok {}, rest) := by
    unfold Meta.parseGetResponse
    rw [Rd.bind_of_ok hline, Rd.ite_apply', if_neg (by simp [Meta.msgEnd]), Rd.ite_apply', if_neg (by simp [Meta.msgNoop]),
      Rd.ite_apply', if_neg (by simp [hasPrefix])]
    have hd : sliceFrom (b!"VA " ++ natDec n ++ b!"\r\n") 3 = .ok (natDec n ++ b!"\r\n") :=
      sliceFrom_ok.2 ⟨b!"VA ", by simp, rfl⟩
    rw [hd, Rd.bind_of_ok (Rd.lift_apply _ _), hscan, Rd.bind_of_ok (Rd.lift_apply _ _)]
    exact n_ok_iff.2 ⟨[a, b], rest, rfl, rfl, by show (2 : Nat) ≤ maxAlloc; decide, rfl⟩
  rw [Rd.bind_of_ok hp]
  rfl

/-- Non-vacuity. -/
example : (Meta.get b!"k").rd b!"VA 4 f1 c2 t-1\r\nEN\r\n\r\nrest"
    = (.ok { key := b!"k", value := b!"EN\r\n", flags := some [0, 0, 0, 1], cas := 2, expiration := -1 }, b!"rest") := by
  decide +kernel

/-! ### Binary -/

/-- C23, binary Get: the value is the body without extras and key (whose lengths are announced in the
header), the flags are the extras.  Stated for headers whose extras and key lengths do not exceed 16
bits together; see `C23_binary_wrap`. -/
theorem C23_binary_get (hd : Bin.ReqHdr) (k : Bytes) (i r : Bytes) (item : Item) (h b s : Bytes)
    (hb : BinReply i h b s) (hw : extraLenOf h + keyLenOf h < 2 ^ 16) :
    (Bin.get hd k).rd i = (.ok item, r)
      ↔ statusOf h = 0 ∧ r = s ∧ ∃ f key value, b = f ++ key ++ value ∧ f.length = extraLenOf h
          ∧ key.length = keyLenOf h ∧ item = { key := k, value := value, flags := some f, cas := casOf h } := by
  obtain ⟨rfl, hh, hlen⟩ := hb
  have hvs : (Bin.ResHdr.ofBytes h).valueStart = extraLenOf h + keyLenOf h := Nat.mod_eq_of_lt hw
  have hel : (Bin.ResHdr.ofBytes h).extraLength = extraLenOf h := rfl
  show (Bin.readHdr >>= _) _ = _ ↔ _
  rw [hdr_iff (by simp) (by simp)]
  constructor
  · rintro ⟨h', r', e, hb', he⟩
    rw [List.append_assoc] at e
    obtain ⟨rfl, rfl⟩ := List.append_inj e (hh.1.trans hb'.1.symm)
    obtain ⟨b', r2, e2, hl, he⟩ := (full_iff (by simp)).1 he
    obtain ⟨rfl, rfl⟩ := List.append_inj e2 (hlen.trans hl.symm)
    rw [Rd.ite_apply'] at he
    split at he
    · rw [Rd.ite_apply'] at he
      split at he <;> simp at he
    · rename_i hs
      obtain ⟨v, hv, he⟩ := lift_ok_iff.1 he
      obtain ⟨f, hf, he⟩ := lift_ok_iff.1 he
      simp only [Rd.pure_apply, Prod.mk.injEq, Res.ok.injEq] at he
      obtain ⟨rfl, rfl⟩ := he
      obtain ⟨t, rfl, ht⟩ := sliceFrom_ok.1 hv
      obtain ⟨t2, e3, hf⟩ := sliceTo_ok.1 hf
      rw [hvs] at ht
      rw [hel] at hf
      refine ⟨Decidable.not_not.1 hs, rfl, f, t.drop f.length, v, ?_, by omega, by simp; omega, rfl⟩
      have : t.take f.length = f := by
        have h1 : (t ++ v).take f.length = f := by rw [e3]; simp
        rwa [List.take_append_of_le_length (by omega)] at h1
      conv => lhs; rw [← List.take_append_drop f.length t, this]
  · rintro ⟨hs, rfl, f, key, value, rfl, hf, hk, rfl⟩
    refine ⟨h, f ++ key ++ value ++ r, by simp, hh, (full_iff (by simp)).2 ⟨f ++ key ++ value, r, rfl, hlen, ?_⟩⟩
    have hs' : (Bin.ResHdr.ofBytes h).status = 0 := hs
    rw [Rd.ite_apply', if_neg (by simp [hs'])]
    refine lift_ok_iff.2 ⟨value, sliceFrom_ok.2 ⟨f ++ key, rfl, by rw [hvs]; simp; omega⟩, ?_⟩
    exact lift_ok_iff.2 ⟨f, sliceTo_ok.2 ⟨key ++ value, by simp, by rw [hel]; omega⟩, rfl⟩

/-- Without the 16-bit condition: extras and key length are added modulo 2^16, so a reply with extras
and a key of 65535 bytes has its value cut out at the wrong place. -/
theorem C23_binary_wrap (hd : Bin.ReqHdr) (k f key value r : Bytes) (h : Bytes) (hh : BinHead h)
    (hs : statusOf h = 0) (hf : f.length = 4) (hk : key.length = 65535) (h1 : extraLenOf h = 4)
    (h2 : keyLenOf h = 65535) (h3 : bodyLenOf h = 4 + 65535 + value.length) :
    (Bin.get hd k).rd (h ++ (f ++ key ++ value) ++ r)
      = (.ok { key := k, value := f.drop 3 ++ key ++ value, flags := some f, cas := casOf h }, r) := by
  have hvs : (Bin.ResHdr.ofBytes h).valueStart = 3 := by
    show (extraLenOf h + keyLenOf h) % 2 ^ 16 = 3
    rw [h1, h2]
  have hs' : (Bin.ResHdr.ofBytes h).status = 0 := hs
  show (Bin.readHdr >>= _) _ = _
  rw [hdr_iff (by simp) (by simp)]
  refine ⟨h, f ++ key ++ value ++ r, by simp, hh, (full_iff (by simp)).2 ⟨f ++ key ++ value, r, rfl, ?_, ?_⟩⟩
  · show _ = bodyLenOf h
    rw [h3]; simp; omega
  · rw [Rd.ite_apply', if_neg (by simp [hs'])]
    refine lift_ok_iff.2 ⟨f.drop 3 ++ key ++ value, sliceFrom_ok.2 ⟨f.take 3, ?_, by rw [hvs]; simp; omega⟩, ?_⟩
    · simp only [← List.append_assoc]
      rw [List.take_append_drop]
    · refine lift_ok_iff.2 ⟨f, sliceTo_ok.2 ⟨key ++ value, by simp, ?_⟩, rfl⟩
      show (f.length : Int) = ((extraLenOf h : Nat) : Int)
      rw [h1, hf]

/-- Non-vacuity: a binary Get reply. -/
example : (Bin.get {} b!"k").rd ([0x81, 0, 0, 0, 4, 0, 0, 0, 0, 0, 0, 7] ++ List.replicate 12 0 ++ [0, 0, 0, 9] ++ b!"abc" ++ b!"rest")
    = (.ok { key := b!"k", value := b!"abc", flags := some [0, 0, 0, 9] }, b!"rest") := rfl

end Props
end Verif
