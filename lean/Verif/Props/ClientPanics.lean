import Verif.Props.Acks
import Verif.Props.Values
import Verif.Lemmas.Never
/-!
C51: which replies make a client operation panic.  The theorems are equivalences: exactly the
replies on the right-hand side do.
-/

namespace Verif
namespace Props
open Spec

/-- On the stream `i` the operation panics. -/
def Panics {α : Type} (c : Call α) (i : Bytes) : Prop := (c.rd i).1 = .panic

theorem panics_iff {α : Type} {c : Call α} {i : Bytes} : Panics c i ↔ ∃ r, c.rd i = (.panic, r) := by
  unfold Panics
  constructor
  · intro h; exact ⟨(c.rd i).2, by rw [← h]⟩
  · rintro ⟨r, h⟩; rw [h]

/-! ### Operations that never panic -/

/-- The reader never panics. -/
def NoPanic {α : Type} (m : Rd α) : Prop := ∀ i, (m i).1 ≠ .panic

theorem noPanic_pure {α : Type} (a : α) : NoPanic (pure a : Rd α) := fun _ => by simp
theorem noPanic_fail {α : Type} (e : Err) : NoPanic (Rd.fail e : Rd α) := fun _ => by simp
theorem noPanic_ite {α : Type} {c : Prop} [Decidable c] {a b : Rd α} (ha : NoPanic a) (hb : NoPanic b) :
    NoPanic (if c then a else b) := by split <;> assumption
theorem NoPanic.bind {α β : Type} {m : Rd α} {f : α → Rd β} (hm : NoPanic m) (hf : ∀ a, NoPanic (f a)) :
    NoPanic (m >>= f) := by
  intro i
  rw [Rd.bind_apply]
  have h := hm i
  cases hmi : m i with
  | mk res r =>
    rw [hmi] at h
    cases res with
    | ok a => exact hf a r
    | err e' => simp
    | panic => simp at h
theorem noPanic_readFull (n : Nat) : NoPanic (readFull n) := by
  intro i; unfold readFull; split <;> simp
theorem noPanic_readSlice : NoPanic readSlice := by
  intro i
  rcases readSlice_other i with ⟨l, r', hl⟩ | ⟨r', hl⟩ | ⟨r', hl⟩ <;> rw [hl] <;> simp
theorem noPanic_readHdr : NoPanic Bin.readHdr := by
  unfold Bin.readHdr
  exact (noPanic_readFull 24).bind fun b => noPanic_ite (noPanic_fail _) (noPanic_pure _)

theorem table_noPanic {α : Type} {c : Call α} {f : Bytes → Res α}
    (h : ∀ i, c.rd i = (readSlice >>= fun b => Rd.lift (f b)) i) (hf : ∀ l, f l ≠ .panic) : NoPanic c.rd := by
  intro i
  rw [h]
  exact noPanic_readSlice.bind (fun b i => by simpa using hf b) i

/-- C51: no reply makes these operations panic. -/
theorem C51_never (hd : Bin.ReqHdr) (item : Item) (k : Bytes) (e : Int) (i : Bytes) :
    (¬ Panics (Text.set item) i ∧ ¬ Panics (Text.add item) i ∧ ¬ Panics (Text.replace item) i
      ∧ ¬ Panics (Text.delete k) i ∧ ¬ Panics (Text.touch k e) i ∧ ¬ Panics Text.version i)
    ∧ (¬ Panics (Meta.set item) i ∧ ¬ Panics (Meta.add item) i ∧ ¬ Panics (Meta.replace item) i
      ∧ ¬ Panics (Meta.delete k) i ∧ ¬ Panics (Meta.touch k e) i ∧ ¬ Panics Meta.version i)
    ∧ (¬ Panics (Bin.set hd item) i ∧ ¬ Panics (Bin.add hd item) i ∧ ¬ Panics (Bin.replace hd item) i
      ∧ ¬ Panics (Bin.delete hd k) i ∧ ¬ Panics (Bin.touch hd k e) i ∧ ¬ Panics (Bin.flush hd) i
      ∧ ¬ Panics (Bin.version hd) i) := by
  have add : ∀ l, Table.add l ≠ .panic := fun l => by unfold Table.add; split <;> simp
  have rep : ∀ l, Table.replace l ≠ .panic := fun l => by unfold Table.replace; split <;> simp
  have ver : ∀ l, Table.version l ≠ .panic := fun l => by unfold Table.version; simp
  refine ⟨⟨?_, ?_, ?_, ?_, ?_, ?_⟩, ⟨?_, ?_, ?_, ?_, ?_, ?_⟩, ?_, ?_, ?_, ?_, ?_, ?_, ?_⟩
  · exact table_noPanic (textSet_table item) (fun l => by unfold Table.textSet; split <;> (try split) <;> simp) i
  · exact table_noPanic (textAdd_table item) add i
  · exact table_noPanic (textReplace_table item) rep i
  · exact table_noPanic (textDelete_table k) (fun l => by unfold Table.textDelete; split <;> (try split) <;> simp) i
  · exact table_noPanic (textTouch_table k e) (fun l => by unfold Table.textTouch; split <;> (try split) <;> simp) i
  · exact table_noPanic textVersion_table ver i
  · exact table_noPanic (metaSet_table item)
      (fun l => by unfold Table.metaSet; split <;> (try split) <;> (try split) <;> (try split) <;> simp) i
  · exact table_noPanic (metaAdd_table item) add i
  · exact table_noPanic (metaReplace_table item) rep i
  · exact table_noPanic (metaDelete_table k)
      (fun l => by unfold Table.metaDelete; split <;> (try split) <;> (try split) <;> simp) i
  · exact table_noPanic (metaTouch_table k e) (fun l => by unfold Table.metaTouch; split <;> simp) i
  · exact table_noPanic metaVersion_table ver i
  · exact noPanic_readHdr.bind (fun r => noPanic_ite (noPanic_fail _) (noPanic_ite (noPanic_ite (noPanic_fail _)
      (noPanic_fail _)) (noPanic_pure _))) i
  · exact noPanic_readHdr.bind (fun r => noPanic_ite (noPanic_fail _) (noPanic_ite (noPanic_ite (noPanic_fail _)
      (noPanic_fail _)) (noPanic_pure _))) i
  · exact noPanic_readHdr.bind (fun r => noPanic_ite (noPanic_fail _) ((noPanic_readFull _).bind fun _ =>
      noPanic_ite (noPanic_ite (noPanic_fail _) (noPanic_fail _)) (noPanic_pure _))) i
  · exact noPanic_readHdr.bind (fun r => noPanic_ite (noPanic_fail _) ((noPanic_readFull _).bind fun _ =>
      noPanic_ite (noPanic_ite (noPanic_fail _) (noPanic_fail _)) (noPanic_pure _))) i
  · exact noPanic_readHdr.bind (fun r => noPanic_ite (noPanic_fail _) (noPanic_pure _)) i
  · exact noPanic_readHdr.bind (fun r => noPanic_ite (noPanic_fail _) (noPanic_pure _)) i
  · exact noPanic_readHdr.bind (fun r => noPanic_ite (noPanic_fail _) (noPanic_readFull _)) i

/-! ### One-byte lines -/

theorem short_line {l : Bytes} (hl : Line l) : l.length < 2 ↔ l = [10] := by
  obtain ⟨p, rfl, _⟩ := hl
  cases p with
  | nil => simp
  | cons a b => simp

theorem arith_panic {l : Bytes} (hl : Line l) : Table.arith l = .panic ↔ l = [10] := by
  unfold Table.arith
  split
  · rename_i h; subst h; simp [Text.msgNotFound]
  · rw [← short_line hl]
    constructor
    · intro h
      cases hs : sliceTo l (l.length - 2) with
      | ok d => rw [hs] at h; cases hp : parseInt d 64 <;> simp [Res.bind, numRes, hp] at h
      | err e => rw [hs] at h; simp [Res.bind] at h
      | panic => rcases sliceTo_panic.1 hs with h | h <;> omega
    · intro h
      have hs : sliceTo l (l.length - 2) = .panic := sliceTo_panic.2 (.inl (by omega))
      rw [hs]; rfl

theorem flush_panic {l : Bytes} (hl : Line l) : Table.flush l = .panic ↔ l = [10] := by
  unfold Table.flush
  split
  · rename_i h; subst h; simp [Text.msgOk]
  · rw [← short_line hl]
    constructor
    · intro h
      cases hs : sliceTo l (l.length - 2) with
      | ok d => rw [hs] at h; simp [Res.bind] at h
      | err e => rw [hs] at h; simp [Res.bind] at h
      | panic => rcases sliceTo_panic.1 hs with h | h <;> omega
    · intro h
      have hs : sliceTo l (l.length - 2) = .panic := sliceTo_panic.2 (.inl (by omega))
      rw [hs]; rfl

theorem table_panic {α : Type} {c : Call α} {f : Bytes → Res α}
    (h : ∀ i, c.rd i = (readSlice >>= fun b => Rd.lift (f b)) i) (hf : ∀ l, Line l → (f l = .panic ↔ l = [10]))
    (i : Bytes) : Panics c i ↔ ∃ r, i = 10 :: r := by
  rw [panics_iff]
  refine exists_congr fun r => ?_
  rw [line_table h _ (by simp)]
  constructor
  · rintro ⟨l, hl, hp⟩
    rw [(hf l hl.2.1).1 hp] at hl
    exact hl.1
  · rintro rfl
    have hl : Line [10] := ⟨[], rfl, by simp⟩
    exact ⟨[10], ⟨rfl, hl, by decide⟩, (hf _ hl).2 rfl⟩

/-- C51: Increment, Decrement and Flush of text and meta connections panic exactly when the reply begins
with a bare line feed. -/
theorem C51_bare_newline (k : Bytes) (d e : Int) (i : Bytes) :
    (Panics (Text.increment k d e) i ↔ ∃ r, i = 10 :: r) ∧ (Panics (Text.decrement k d e) i ↔ ∃ r, i = 10 :: r)
      ∧ (Panics Text.flush i ↔ ∃ r, i = 10 :: r)
      ∧ (Panics (Meta.increment k d e) i ↔ ∃ r, i = 10 :: r) ∧ (Panics (Meta.decrement k d e) i ↔ ∃ r, i = 10 :: r)
      ∧ (Panics Meta.flush i ↔ ∃ r, i = 10 :: r) :=
  ⟨table_panic (textArith_table b!"incr" k d) (fun _ => arith_panic) i,
    table_panic (textArith_table b!"decr" k d) (fun _ => arith_panic) i,
    table_panic textFlush_table (fun _ => flush_panic) i,
    table_panic (metaArith_table b!"incr" k d) (fun _ => arith_panic) i,
    table_panic (metaArith_table b!"decr" k d) (fun _ => arith_panic) i,
    table_panic metaFlush_table (fun _ => flush_panic) i⟩

/-! ### Sizes -/

/-- An announced size that cannot be handled when the stream `s` follows: the buffer cannot be made or
cannot be cut (for size -1 that happens after one byte was read). -/
def BadSize (size : Int) (s : Bytes) : Prop := size < -1 ∨ (maxAlloc : Int) < size + 2 ∨ (size = -1 ∧ s ≠ [])

theorem bytes_panic {α : Type} {size : Int} {s : Bytes} {f : Bytes → Rd α} (hf : ∀ v, NoPanic (f v)) :
    (∃ r, (readN (size + 2) >>= fun buf => Rd.lift (sliceTo buf size) >>= f) s = (.panic, r)) ↔ BadSize size s := by
  unfold BadSize
  have hm : maxAlloc = 281474976710656 := by unfold maxAlloc; decide
  constructor
  · rintro ⟨r, h⟩
    rcases n_panic_iff.1 h with ⟨h | h, _⟩ | ⟨v, r', rfl, hv, _, h⟩
    · left; omega
    · right; left; exact h
    · rcases lift_panic_iff.1 h with ⟨h, _⟩ | ⟨w, _, h⟩
      · rcases sliceTo_panic.1 h with h | h
        · by_cases h1 : size = -1
          · right; right
            refine ⟨h1, ?_⟩
            cases v with
            | nil => simp at hv; omega
            | cons a b => simp
          · left; omega
        · omega
      · exact absurd (by rw [h]) (hf w r')
  · intro h
    by_cases h2 : (maxAlloc : Int) < size + 2
    · exact ⟨s, n_panic_iff.2 (.inl ⟨.inr h2, rfl⟩)⟩
    · by_cases h3 : size + 2 < 0
      · exact ⟨s, n_panic_iff.2 (.inl ⟨.inl h3, rfl⟩)⟩
      · rcases h with h | h | ⟨h, hs⟩
        · have : size = -2 := by omega
          subst this
          exact ⟨s, n_panic_iff.2 (.inr ⟨[], s, rfl, rfl, by simp, lift_panic_iff.2 (.inl ⟨rfl, rfl⟩)⟩)⟩
        · exact absurd h h2
        · subst h
          cases s with
          | nil => exact absurd rfl hs
          | cons a b =>
            exact ⟨b, n_panic_iff.2 (.inr ⟨[a], b, rfl, rfl, by simp [hm], lift_panic_iff.2 (.inl ⟨rfl, rfl⟩)⟩)⟩

/-- C51, text Get: panics exactly when the reply is a `VALUE` line, accepted by the scan of its fields,
whose size is negative or too large to allocate. -/
theorem C51_text_get (name k i : Bytes) : Panics (Text.get name k) i
    ↔ ∃ hdr s key flags size cas, Reply i hdr s ∧ b!"VALUE" <+: hdr
        ∧ Scan.scanValue (hdr.count 32 != 3) hdr = some (key, flags, size, cas) ∧ BadSize size s := by
  have hcont : ∀ (key : Bytes) (flags cas : Nat) (v : Bytes), NoPanic (do
      let e ← readSlice
      if e ≠ Text.msgEnd then Rd.fail errInvalidResponse
      else pure ({ key := key, value := v, flags := some (putBE 4 flags), cas := cas, server := name } : Item)) :=
    fun key flags cas v => noPanic_readSlice.bind fun e => noPanic_ite (noPanic_fail _) (noPanic_pure _)
  rw [panics_iff]
  constructor
  · rintro ⟨r, h⟩
    have h' : (readSlice >>= _) i = (Res.panic, r) := h
    obtain ⟨l, s, hl, he⟩ := (line_iff (by simp)).1 h'
    simp only [Rd.ite_apply', Rd.fail_apply] at he
    split at he
    · simp at he
    · split at he
      · simp at he
      · rename_i h2
        cases hs : Scan.scanValue (l.count 32 != 3) l with
        | none => rw [hs] at he; simp at he
        | some q =>
          obtain ⟨key, flags, size, cas⟩ := q
          rw [hs] at he
          refine ⟨l, s, key, flags, size, cas, hl, ?_, hs, (bytes_panic (hcont key flags cas)).1 ⟨r, he⟩⟩
          have : hasPrefix l b!"VALUE" = true := by simpa using h2
          exact List.isPrefixOf_iff_prefix.1 this
  · rintro ⟨hdr, s, key, flags, size, cas, hl, hp, hs, hb⟩
    obtain ⟨r, hr⟩ := (bytes_panic (hcont key flags cas)).2 hb
    refine ⟨r, ?_⟩
    show (readSlice >>= _) i = _
    refine (line_iff (by simp)).2 ⟨hdr, s, hl, ?_⟩
    rw [Rd.ite_apply', if_neg, Rd.ite_apply', if_neg, hs]
    · exact hr
    · have : hasPrefix hdr b!"VALUE" = true := List.isPrefixOf_iff_prefix.2 hp
      simp [this]
    · rintro rfl
      simp [Text.msgEnd] at hp

/-- Non-vacuity: a negative size. -/
example : Panics (Text.get b!"s" b!"k") b!"VALUE k 0 -5 1\r\n" ∧ Panics (Text.get b!"s" b!"k") b!"VALUE k 0 -1\r\nx"
    ∧ ¬ Panics (Text.get b!"s" b!"k") b!"VALUE k 0 -1\r\n" := by
  unfold Panics; decide +kernel

/-! ### Text GetMulti -/

/-- The size field of a `VALUE` line split at spaces: the fourth token; it is followed by the cas token or,
when it is the last one, by the line end, of which two bytes are cut off. -/
def sizeField (ss : Bytes) (more : List Bytes) : Bytes := if more = [] then ss.take (ss.length - 2) else ss

/-- The header line announces a value of this size. -/
def Announces (hdr : Bytes) (key : Bytes) (size : Int) : Prop :=
  ∃ sf ss more flags, splitSp hdr = b!"VALUE" :: key :: sf :: ss :: more ∧ parseInt sf 64 = some flags
    ∧ (more = [] → 2 ≤ ss.length) ∧ parseInt (sizeField ss more) 64 = some size

/-- The header line lacks fields: it is `VALUE` and one more token, or its size token is a bare line feed. -/
def LacksFields (hdr : Bytes) : Prop :=
  (∃ key, splitSp hdr = [b!"VALUE", key])
    ∨ ∃ key sf flags, splitSp hdr = [b!"VALUE", key, sf, [10]] ∧ parseInt sf 64 = some flags

theorem line_last {l : Bytes} (hl : Line l) {ws : List Bytes} {w : Bytes} (h : splitSp l = ws ++ [w]) :
    ∃ p, w = p ++ [10] := by
  obtain ⟨p, rfl, _⟩ := hl
  have hj := joinSp_splitSp (p ++ [10])
  rw [h] at hj
  rcases List.eq_nil_or_concat w with rfl | ⟨q, c, rfl⟩
  · exfalso
    have : ∀ ws : List Bytes, joinSp (ws ++ [[]]) = [] ∨ ∃ q, joinSp (ws ++ [[]]) = q ++ [32] := by
      intro ws
      induction ws with
      | nil => left; rfl
      | cons a b ih =>
        right
        cases b with
        | nil => exact ⟨a, by simp [joinSp]⟩
        | cons c d =>
          rcases ih with h | ⟨q, h⟩
          · simp [joinSp] at h
          · exact ⟨a ++ 32 :: q, by simp only [List.cons_append, joinSp] at h ⊢; rw [h]; simp⟩
    rcases this ws with h | ⟨q, h⟩
    · rw [h] at hj; simp at hj
    · rw [h] at hj
      have := congrArg List.getLast? hj
      simp at this
  · have : ∀ ws : List Bytes, ∃ q', joinSp (ws ++ [q ++ [c]]) = q' ++ [c] := by
      intro ws
      induction ws with
      | nil => exact ⟨q, by simp [joinSp]⟩
      | cons a b ih =>
        obtain ⟨q', h⟩ := ih
        cases b with
        | nil => exact ⟨a ++ 32 :: q, by simp [joinSp]⟩
        | cons e d => exact ⟨a ++ 32 :: q', by simp only [List.cons_append, joinSp] at h ⊢; rw [h]; simp⟩
    obtain ⟨q', h⟩ := this ws
    simp only [List.concat_eq_append] at hj
    rw [h] at hj
    have := congrArg List.getLast? hj
    simp at this
    subst this
    exact ⟨q, by simp⟩

theorem decVal_lf (p : Bytes) (acc : Nat) : decVal (p ++ [10]) acc = none := by
  induction p generalizing acc with
  | nil => simp [decVal, isDigit]
  | cons b r ih =>
    simp only [List.cons_append, decVal]
    split
    · exact ih _
    · rfl

theorem parseUint_lf (p : Bytes) (bits : Nat) : parseUint (p ++ [10]) bits = none := by
  unfold parseUint
  rw [decVal_lf]
  split <;> rfl

theorem parseInt_lf (p : Bytes) (bits : Nat) : parseInt (p ++ [10]) bits = none := by
  unfold parseInt
  cases p with
  | nil => simp [parseUint, decVal, isDigit]
  | cons b r =>
    have h1 := parseUint_lf r bits
    have h2 := parseUint_lf (b :: r) bits
    simp only [List.cons_append] at h2 ⊢
    rw [h1, h2]
    simp

theorem bind_ok_iff {α β : Type} {a : Res α} {g : α → Res β} {q : β} :
    (a >>= g) = .ok q ↔ ∃ v, a = .ok v ∧ g v = .ok q := by
  cases a <;> simp

theorem bind_panic_iff {α β : Type} {a : Res α} {g : α → Res β} :
    (a >>= g) = .panic ↔ a = .panic ∨ ∃ v, a = .ok v ∧ g v = .panic := by
  cases a <;> simp

theorem numRes_ok {α : Type} {o : Option α} {v : α} : numRes o = .ok v ↔ o = some v := by
  cases o <;> simp [numRes]
theorem numRes_panic {α : Type} {o : Option α} : numRes o ≠ .panic := by
  cases o <;> simp [numRes]

theorem index_ok {α : Type} {l : List α} {n : Nat} {v : α} : index l n = .ok v ↔ l[n]? = some v := by
  unfold index
  cases h : l[n]? <;> simp
theorem index_panic {α : Type} {l : List α} {n : Nat} : index l n = .panic ↔ l.length ≤ n := by
  unfold index
  cases h : l[n]? with
  | none => simpa using h
  | some v =>
    simp only [reduceCtorEq, false_iff, Nat.not_le]
    exact (List.getElem?_eq_some_iff.1 h).1

theorem blockHead_ok {l : Bytes} {q : Bytes × Bytes × Int × Nat} (h : blockHead l = .ok q) :
    Announces l q.1 q.2.2.1 ∧ makeLen (q.2.2.1 + 2) = .ok q.2.2.2 := by
  unfold blockHead at h
  split at h
  · simp at h
  · rename_i hv
    simp only [bind_ok_iff, index_ok, numRes_ok] at h
    obtain ⟨s2, h2, f, hf, s3, h3, sz, hsz, size, hsize, k, hk, s1, h1, h⟩ := h
    simp only [Res.pure_eq, Res.ok.injEq] at h
    subst h
    refine ⟨?_, hk⟩
    have hv' : (splitSp l).head? = some b!"VALUE" := Decidable.not_not.1 hv
    match hs : splitSp l with
    | [] => rw [hs] at hv'; simp at hv'
    | [a] => rw [hs] at h1; simp at h1
    | [a, b] => rw [hs] at h2; simp at h2
    | [a, b, c] => rw [hs] at h3; simp at h3
    | a :: b :: c :: d :: more =>
      rw [hs] at h1 h2 h3 hv'
      simp only [List.head?_cons, Option.some.injEq] at hv'
      simp at h1 h2 h3
      subst h1 h2 h3 hv'
      refine ⟨c, d, more, f, hs, hf, ?_, ?_⟩
      · intro hm
        rw [hs, if_pos (by simp [hm])] at hsz
        obtain ⟨t, ht, hl⟩ := sliceTo_ok.1 hsz
        omega
      · unfold sizeField
        rw [hs] at hsz
        split
        · rename_i hm
          rw [if_pos (by simp [hm])] at hsz
          obtain ⟨t, ht, hl⟩ := sliceTo_ok.1 hsz
          have : d.take (d.length - 2) = sz := by
            have hln : d.length - 2 = sz.length := by omega
            rw [hln, ht]; simp
          rw [this]; exact hsize
        · rename_i hm
          rw [if_neg (by simpa using hm)] at hsz
          simp only [Res.pure_eq, Res.ok.injEq] at hsz
          rw [hsz]; exact hsize

theorem blockHead_of_announces {l key : Bytes} {size : Int} (h : Announces l key size) :
    ∃ fl, blockHead l = (makeLen (size + 2) >>= fun k => pure (key, fl, size, k)) := by
  obtain ⟨sf, ss, more, flags, hs, hf, hm, hsz⟩ := h
  refine ⟨putBE 4 (toUnsigned 32 flags), ?_⟩
  have e : (if (splitSp l).length = 4 then sliceTo ss (ss.length - 2) else pure ss) = .ok (sizeField ss more) := by
    rw [hs]
    unfold sizeField
    cases more with
    | nil =>
      have := hm rfl
      simp only [List.length_cons, List.length_nil, if_true]
      refine sliceTo_ok.2 ⟨ss.drop (ss.length - 2), (List.take_append_drop _ _).symm, ?_⟩
      rw [List.length_take]; omega
    | cons a b => simp
  unfold blockHead
  rw [if_neg (by rw [hs]; simp)]
  have i2 : index (splitSp l) 2 = .ok sf := index_ok.2 (by rw [hs]; rfl)
  have i3 : index (splitSp l) 3 = .ok ss := index_ok.2 (by rw [hs]; rfl)
  have i1 : index (splitSp l) 1 = .ok key := index_ok.2 (by rw [hs]; rfl)
  rw [i2, Res.bind_ok, hf]
  show (numRes (some flags) >>= _) = _
  rw [show numRes (some flags) = .ok flags from rfl, Res.bind_ok, i3, Res.bind_ok, e, Res.bind_ok, hsz,
    show numRes (some size) = .ok size from rfl, Res.bind_ok]
  cases makeLen (size + 2) with
  | err e => rfl
  | panic => rfl
  | ok k => rw [Res.bind_ok, i1, Res.bind_ok]; rfl

theorem blockHead_panic {l : Bytes} (hl : Line l) : blockHead l = .panic
    ↔ LacksFields l ∨ ∃ key size, Announces l key size ∧ makeLen (size + 2) = .panic := by
  constructor
  · intro h
    unfold blockHead at h
    split at h
    · simp at h
    · rename_i hv
      have hv' : (splitSp l).head? = some b!"VALUE" := Decidable.not_not.1 hv
      match hs : splitSp l with
      | [] => rw [hs] at hv'; simp at hv'
      | [a] =>
        rw [hs] at hv'
        simp only [List.head?_cons, Option.some.injEq] at hv'
        obtain ⟨p, hp⟩ := line_last hl (ws := []) (w := a) hs
        rw [hp] at hv'
        have := congrArg List.getLast? hv'
        simp at this
      | [a, b] =>
        rw [hs] at hv'
        simp only [List.head?_cons, Option.some.injEq] at hv'
        subst hv'
        exact .inl (.inl ⟨b, hs⟩)
      | [a, b, c] =>
        exfalso
        obtain ⟨p, hp⟩ := line_last hl (ws := [a, b]) (w := c) hs
        rw [hs] at h
        have i2 : index [a, b, c] 2 = .ok c := rfl
        rw [i2, Res.bind_ok, hp, parseInt_lf] at h
        simp [numRes] at h
      | a :: b :: c :: d :: more =>
        rw [hs] at hv'
        simp only [List.head?_cons, Option.some.injEq] at hv'
        subst hv'
        have i2 : index (splitSp l) 2 = .ok c := index_ok.2 (by rw [hs]; rfl)
        have i3 : index (splitSp l) 3 = .ok d := index_ok.2 (by rw [hs]; rfl)
        have i1 : index (splitSp l) 1 = .ok b := index_ok.2 (by rw [hs]; rfl)
        rw [i2, Res.bind_ok] at h
        rcases bind_panic_iff.1 h with h | ⟨f, hf, h⟩
        · exact absurd h numRes_panic
        · rw [i3, Res.bind_ok] at h
          rcases bind_panic_iff.1 h with h | ⟨sz, hsz, h⟩
          · split at h
            · rename_i h4
              rw [hs] at h4
              have hm : more = [] := by simpa using h4
              subst hm
              obtain ⟨p, hp⟩ := line_last hl (ws := [b!"VALUE", b, c]) (w := d) hs
              have hd : d = [10] := by
                rcases sliceTo_panic.1 h with h | h
                · subst hp
                  cases p with
                  | nil => rfl
                  | cons x y => simp at h; omega
                · omega
              subst hd
              exact .inl (.inr ⟨b, c, f, hs, numRes_ok.1 hf⟩)
            · simp at h
          · rcases bind_panic_iff.1 h with h | ⟨size, hsize, h⟩
            · exact absurd h numRes_panic
            · rcases bind_panic_iff.1 h with h | ⟨k, hk, h⟩
              · refine .inr ⟨b, size, ⟨c, d, more, f, hs, numRes_ok.1 hf, ?_, ?_⟩, h⟩
                · intro hm
                  rw [hs, if_pos (by simp [hm])] at hsz
                  obtain ⟨t, ht, hl⟩ := sliceTo_ok.1 hsz
                  omega
                · unfold sizeField
                  rw [hs] at hsz
                  split
                  · rename_i hm
                    rw [if_pos (by simp [hm])] at hsz
                    obtain ⟨t, ht, hl⟩ := sliceTo_ok.1 hsz
                    have : d.take (d.length - 2) = sz := by
                      have hln : d.length - 2 = sz.length := by omega
                      rw [hln, ht]; simp
                    rw [this]; exact numRes_ok.1 hsize
                  · rename_i hm
                    rw [if_neg (by simpa using hm)] at hsz
                    simp only [Res.pure_eq, Res.ok.injEq] at hsz
                    rw [hsz]; exact numRes_ok.1 hsize
              · rw [i1, Res.bind_ok] at h
                simp at h
  · rintro ((⟨key, hs⟩ | ⟨key, sf, flags, hs, hf⟩) | ⟨key, size, ha, hk⟩)
    · unfold blockHead
      rw [hs, if_neg (by simp)]
      rfl
    · unfold blockHead
      rw [hs, if_neg (by simp)]
      show (numRes (parseInt sf 64) >>= _) = _
      rw [hf]; rfl
    · obtain ⟨fl, h⟩ := blockHead_of_announces ha
      rw [h, hk]; rfl

/-- A complete block of the reply: header line, value of the announced size, two more bytes. -/
structure RawBlock.Good (b : RawBlock) : Prop where
  line : Line b.hdr
  short : b.hdr.length ≤ 4096
  pad : b.pad.length = 2
  size : ∃ key, Announces b.hdr key b.value.length
  alloc : b.value.length + 2 ≤ maxAlloc

/-- The header line of a block that makes the client panic when `s` follows. -/
def BadBlock (l s : Bytes) : Prop := LacksFields l ∨ ∃ key size, Announces l key size ∧ BadSize size s

theorem not_end_of_value {l : Bytes} (h : (splitSp l).head? = some b!"VALUE") : l ≠ Text.msgEnd := by
  rintro rfl
  exact absurd h (by decide)

theorem parseBlock_panic {l s : Bytes} (hl : Line l) : (∃ r, Text.parseBlock l s = (.panic, r)) ↔ BadBlock l s := by
  unfold BadBlock
  rw [parseBlock_eq]
  constructor
  · rintro ⟨r, h⟩
    rcases lift_panic_iff.1 h with ⟨h, _⟩ | ⟨q, hq, h⟩
    · rcases (blockHead_panic hl).1 h with h | ⟨key, size, ha, hk⟩
      · exact .inl h
      · refine .inr ⟨key, size, ha, ?_⟩
        rcases makeLen_panic.1 hk with h | h
        · exact .inl (by omega)
        · exact .inr (.inl h)
    · obtain ⟨ha, hk⟩ := blockHead_ok hq
      refine .inr ⟨q.1, q.2.2.1, ha, ?_⟩
      refine (bytes_panic (f := fun v => (pure { key := q.1, flags := some q.2.1, value := v } : Rd Item))
        (fun v => noPanic_pure _)).1 ⟨r, ?_⟩
      rw [readN_bind, hk]
      exact h
  · rintro (h | ⟨key, size, ha, hb⟩)
    · rw [(blockHead_panic hl).2 (.inl h)]
      exact ⟨s, rfl⟩
    · obtain ⟨fl, h⟩ := blockHead_of_announces ha
      rw [h]
      obtain ⟨r, hr⟩ := (bytes_panic (f := fun v => (pure { key := key, flags := some fl, value := v } : Rd Item))
        (fun v => noPanic_pure _)).2 hb
      rw [readN_bind] at hr
      refine ⟨r, ?_⟩
      cases hm : makeLen (size + 2) with
      | panic => rw [hm] at hr; exact hr
      | err e => rw [hm] at hr; simp [Rd.bind_apply] at hr
      | ok k => rw [hm] at hr; exact hr

theorem announces_head {l key : Bytes} {size : Int} (h : Announces l key size) :
    (splitSp l).head? = some b!"VALUE" := by
  obtain ⟨_, _, _, _, hs, _⟩ := h
  rw [hs]; rfl

theorem badBlock_head {l s : Bytes} (h : BadBlock l s) : (splitSp l).head? = some b!"VALUE" := by
  rcases h with (⟨_, hs⟩ | ⟨_, _, _, hs, _⟩) | ⟨_, _, h, _⟩
  · rw [hs]; rfl
  · rw [hs]; rfl
  · exact announces_head h

theorem parseBlock_good {b : RawBlock} (hb : b.Good) (r : Bytes) :
    ∃ item, Text.parseBlock b.hdr (b.value ++ b.pad ++ r) = (.ok item, r) := by
  obtain ⟨key, ha⟩ := hb.size
  obtain ⟨fl, h⟩ := blockHead_of_announces ha
  have hk : makeLen ((b.value.length : Int) + 2) = .ok (b.value.length + 2) :=
    makeLen_ok.2 ⟨by omega, hb.alloc⟩
  rw [hk, Res.bind_ok] at h
  refine ⟨{ key := key, flags := some fl, value := b.value }, ?_⟩
  rw [parseBlock_eq, h]
  exact (body_ok hk).2 ⟨b.value, b.pad, rfl, rfl, hb.pad, rfl⟩

/-- C51, text GetMulti: panics exactly when after some complete blocks a header line comes that lacks fields
or announces a bad size. -/
theorem C51_text_getMulti (name : Bytes) (ks : List Bytes) (i : Bytes) : Panics (Text.getMulti name ks) i
    ↔ ∃ (blocks : List RawBlock) (l s : Bytes), i = blocks.flatMap RawBlock.bytes ++ l ++ s
        ∧ (∀ b ∈ blocks, b.Good) ∧ Line l ∧ l.length ≤ 4096 ∧ BadBlock l s := by
  have hgo : Panics (Text.getMulti name ks) i ↔ ∃ r, Text.parseLoop (i.length + 1) [] i = (.panic, r) := by
    rw [panics_iff]
    refine exists_congr fun r => ?_
    show (Text.parseGetResponse >>= _) i = _ ↔ _
    rw [Rd.bind_apply, show Text.parseGetResponse i = Text.parseLoop (i.length + 1) [] i from rfl]
    cases Text.parseLoop (i.length + 1) [] i with
    | mk x r' => cases x <;> simp
  rw [hgo]
  constructor
  · have key : ∀ n acc i, i.length < n → (∃ r, Text.parseLoop n acc i = (.panic, r)) →
        ∃ (blocks : List RawBlock) (l s : Bytes), i = blocks.flatMap RawBlock.bytes ++ l ++ s
          ∧ (∀ b ∈ blocks, b.Good) ∧ Line l ∧ l.length ≤ 4096 ∧ BadBlock l s := by
      intro n
      induction n with
      | zero => intro acc i hn; omega
      | succ n ih =>
        rintro acc i hn ⟨r, h⟩
        unfold Text.parseLoop at h
        obtain ⟨l, s, ⟨rfl, hl, hlen⟩, h2⟩ := (line_iff (by simp)).1 h
        rw [Rd.ite_apply'] at h2
        split at h2
        · simp at h2
        · rw [Rd.bind_apply] at h2
          cases hq : Text.parseBlock l s with
          | mk x r2 =>
            rw [hq] at h2
            cases x with
            | err e => simp at h2
            | panic => exact ⟨[], l, s, by simp, by simp, hl, hlen, (parseBlock_panic hl).1 ⟨r2, hq⟩⟩
            | ok item =>
              rw [parseBlock_eq] at hq
              obtain ⟨q, hbh, hq⟩ := lift_ok_iff.1 hq
              obtain ⟨ha, hk⟩ := blockHead_ok hbh
              obtain ⟨value, pad, rfl, hv, hp, _⟩ := (body_ok hk).1 hq
              have hlpos : 0 < l.length := by obtain ⟨p, rfl, _⟩ := hl; simp
              obtain ⟨bs, l', s', rfl, h3, h4, h5, h6⟩ := ih _ r2 (by simp at hn; omega) ⟨r, h2⟩
              have hal := makeLen_ok.1 hk
              refine ⟨⟨l, value, pad⟩ :: bs, l', s', by simp [RawBlock.bytes], ?_, h4, h5, h6⟩
              rintro b (_ | ⟨_, hb⟩)
              · exact ⟨hl, hlen, hp, ⟨q.1, by rw [hv]; exact ha⟩, by show value.length + 2 ≤ _; omega⟩
              · exact h3 b (by assumption)
    exact key _ _ i (by omega)
  · rintro ⟨blocks, l, s, rfl, hg, hl, hlen, hb⟩
    have key : ∀ (bs : List RawBlock) n acc, (∀ b ∈ bs, b.Good) → bs.length < n →
        ∃ r, Text.parseLoop n acc (bs.flatMap RawBlock.bytes ++ l ++ s) = (.panic, r) := by
      intro bs
      induction bs with
      | nil =>
        intro n acc _ hn
        obtain ⟨m, rfl⟩ : ∃ k, n = k + 1 := ⟨n - 1, by simp at hn; omega⟩
        obtain ⟨r, hr⟩ := (parseBlock_panic hl).2 hb
        refine ⟨r, ?_⟩
        unfold Text.parseLoop
        simp only [List.flatMap_nil, List.nil_append]
        rw [Rd.bind_of_ok (readSlice_iff.2 ⟨rfl, hl, hlen⟩), Rd.ite_apply',
          if_neg (not_end_of_value (badBlock_head hb)), Rd.bind_of_panic hr]
      | cons b bs ih =>
        intro n acc hg hn
        obtain ⟨m, rfl⟩ : ∃ k, n = k + 1 := ⟨n - 1, by simp at hn; omega⟩
        have hb' := hg b (by simp)
        obtain ⟨item, hit⟩ := parseBlock_good hb' (bs.flatMap RawBlock.bytes ++ l ++ s)
        obtain ⟨r, hr⟩ := ih m (acc ++ [item]) (fun x hx => hg x (by simp [hx])) (by simp at hn; omega)
        refine ⟨r, ?_⟩
        unfold Text.parseLoop
        have e : List.flatMap RawBlock.bytes (b :: bs) ++ l ++ s
            = b.hdr ++ (b.value ++ b.pad ++ (bs.flatMap RawBlock.bytes ++ l ++ s)) := by
          simp [RawBlock.bytes]
        obtain ⟨key, ha⟩ := hb'.size
        rw [e, Rd.bind_of_ok (readSlice_iff.2 ⟨rfl, hb'.line, hb'.short⟩), Rd.ite_apply',
          if_neg (not_end_of_value (announces_head ha)), Rd.bind_of_ok hit, hr]
    refine key blocks _ _ hg ?_
    have : ∀ bs : List RawBlock, (∀ b ∈ bs, b.Good) → bs.length ≤ (bs.flatMap RawBlock.bytes).length := by
      intro bs
      induction bs with
      | nil => simp
      | cons b bs ih =>
        intro h
        have := (h b (by simp)).pad
        have := ih fun x hx => h x (by simp [hx])
        simp only [List.flatMap_cons, List.length_cons, List.length_append, RawBlock.bytes]
        omega
    have := this blocks hg
    simp only [List.length_append]
    omega

/-- Non-vacuity: `VALUE k` alone, and a negative size after a complete block. -/
example : Panics (Text.getMulti b!"s" [b!"k"]) b!"VALUE k\r\n"
    ∧ Panics (Text.getMulti b!"s" [b!"k"]) b!"VALUE k 0 3 1\r\nabc\r\nVALUE j 0 -7\r\n" := by
  unfold Panics; decide +kernel

/-! ### Meta -/

theorem hdrStep_noPanic (st : Meta.HdrState) (c : UInt8) : Meta.hdrStep st c ≠ .panic := by
  have tok : ∀ f t (it : Item), Meta.readGetFlagToken f t it ≠ .panic := by
    intro f t it
    have num : ∀ bits (g : Int → Res Item), (∀ n, g n ≠ .panic) → (numRes (parseInt t bits) >>= g) ≠ .panic := by
      intro bits g hg h
      rcases bind_panic_iff.1 h with h | ⟨v, _, h⟩
      · exact numRes_panic h
      · exact hg v h
    unfold Meta.readGetFlagToken
    split
    · exact num _ _ (by simp)
    · split
      · exact num _ _ (by simp)
      · split
        · exact num _ _ (by simp)
        · split <;> simp
  unfold Meta.hdrStep
  dsimp only
  intro h
  split at h
  · split at h
    · rcases bind_panic_iff.1 h with h | ⟨v, _, h⟩
      · exact numRes_panic h
      · simp at h
    · split at h
      · rcases bind_panic_iff.1 h with h | ⟨v, _, h⟩
        · exact tok _ _ _ h
        · simp at h
      · simp at h
  · split at h
    · split at h
      · rcases bind_panic_iff.1 h with h | ⟨v, _, h⟩
        · exact tok _ _ _ h
        · simp at h
      · simp at h
    · split at h
      · split at h <;> simp at h
      · simp at h

theorem hdrScan_noPanic (st : Meta.HdrState) (b : Bytes) : Meta.hdrScan st b ≠ .panic := by
  induction b generalizing st with
  | nil => simp [Meta.hdrScan]
  | cons c r ih =>
    unfold Meta.hdrScan
    intro h
    rcases bind_panic_iff.1 h with h | ⟨v, _, h⟩
    · exact hdrStep_noPanic _ _ h
    · exact ih _ h

/-- The size found by the header scan is the number before the first space, or 0 without a space. -/
theorem hdrScan_value {b : Bytes} {st : Meta.HdrState} (h : Meta.hdrScan {} b = .ok st) :
    (32 ∉ b ∧ st.size = 0) ∨ ∃ num toks, b = num ++ 32 :: toks ∧ 32 ∉ num ∧ parseInt num 32 = some st.size := by
  have key : ∀ (b : Bytes) (s st : Meta.HdrState), s.state = 1 → 32 ∉ s.num → s.size = 0 → Meta.hdrScan s b = .ok st →
      (32 ∉ b ∧ st.size = 0) ∨ ∃ num toks, b = num ++ 32 :: toks ∧ 32 ∉ num
        ∧ parseInt (s.num ++ num) 32 = some st.size := by
    intro b
    induction b with
    | nil => intro s st h1 h2 h3 h; simp [Meta.hdrScan] at h; subst h; exact .inl ⟨by simp, h3⟩
    | cons c r ih =>
      intro s st h1 h2 h3 h
      unfold Meta.hdrScan at h
      obtain ⟨s', hs, h⟩ := bind_ok_iff.1 h
      by_cases hc : c = 32
      · subst hc
        right
        unfold Meta.hdrStep at hs
        dsimp only at hs
        rw [if_pos rfl, if_pos h1] at hs
        obtain ⟨n, hn, hs⟩ := bind_ok_iff.1 hs
        simp only [Res.pure_eq, Res.ok.injEq] at hs
        subst hs
        have := hdrScan_size h (by simp)
        exact ⟨[], r, rfl, by simp, by rw [this]; simpa using numRes_ok.1 hn⟩
      · have e : s' = { s with num := s.num ++ [c], tok := s.tok ++ [c] } := by
          unfold Meta.hdrStep at hs
          dsimp only at hs
          rw [if_neg hc] at hs
          simp [h1] at hs
          rw [h1]; exact hs.symm
        subst e
        rcases ih { s with num := s.num ++ [c], tok := s.tok ++ [c] } st h1
            (by simp [h2, Ne.symm hc]) h3 h with ⟨h4, h5⟩ | ⟨num, toks, h4, h5, h6⟩
        · exact .inl ⟨by simp [h4, Ne.symm hc], h5⟩
        · exact .inr ⟨c :: num, toks, by rw [h4]; simp, by simp [h5, Ne.symm hc], by simpa using h6⟩
  simpa using key b {} st rfl (by simp) rfl h

theorem parseInt32_lt {b : Bytes} {n : Int} (h : parseInt b 32 = some n) : n < 2 ^ 31 := by
  unfold parseInt at h
  split at h
  · simp at h
  · split at h
    · split at h
      · split at h <;> simp at h; omega
      · simp at h
    · split at h
      · split at h
        · split at h
          · rename_i hn; simp at h hn; omega
          · simp at h
        · simp at h
      · split at h
        · split at h
          · rename_i hn; simp at h hn; omega
          · simp at h
        · simp at h

/-- A header line of a meta reply that makes the client panic when `s` follows: it starts with `VA`, the field
before the first space is a negative number (for -1 a byte has to follow), and the tokens after it are accepted. -/
def BadMeta (l s : Bytes) : Prop :=
  b!"VA" <+: l ∧ ∃ num toks n, l.drop 3 = num ++ 32 :: toks ∧ 32 ∉ num ∧ parseInt num 32 = some n
    ∧ (n < -1 ∨ (n = -1 ∧ s ≠ [])) ∧ (Meta.hdrScan {} (l.drop 3)).isOk = true

theorem va_len {l : Bytes} (hl : Line l) (h : b!"VA" <+: l) : 3 ≤ l.length := by
  obtain ⟨t, rfl⟩ := h
  obtain ⟨p, hp, _⟩ := hl
  cases t with
  | nil =>
    have := congrArg List.getLast? hp
    simp at this
  | cons a b => simp

theorem meta_parse_panic {i : Bytes} : (∃ r, Meta.parseGetResponse i = (.panic, r))
    ↔ ∃ l s, Reply i l s ∧ BadMeta l s := by
  have hm : maxAlloc = 281474976710656 := by unfold maxAlloc; decide
  have hcont : ∀ (st : Meta.HdrState) v, NoPanic (pure { st.item with value := v } : Rd Item) := fun st v => noPanic_pure _
  constructor
  · rintro ⟨r, h⟩
    have h' : (readSlice >>= _) i = (Res.panic, r) := h
    obtain ⟨l, s, hl, he⟩ := (line_iff (by simp)).1 h'
    simp only [Rd.ite_apply', Rd.fail_apply] at he
    split at he
    · simp at he
    · split at he
      · simp at he
      · split at he
        · simp at he
        · rename_i hp
          have hp' : hasPrefix l b!"VA" = true := by simpa using hp
          have hva := List.isPrefixOf_iff_prefix.1 hp'
          have hlen := va_len hl.2.1 hva
          rcases lift_panic_iff.1 he with ⟨h1, _⟩ | ⟨body, hb, he2⟩
          · have := sliceFrom_panic.1 h1; omega
          · obtain ⟨t, ht, ht3⟩ := sliceFrom_ok.1 hb
            have hbody : l.drop 3 = body := by rw [ht, ← ht3, List.drop_left]
            rcases lift_panic_iff.1 he2 with ⟨h1, _⟩ | ⟨st, hst, he3⟩
            · exact absurd h1 (hdrScan_noPanic _ _)
            · have hbad := (bytes_panic (hcont st)).1 ⟨r, he3⟩
              refine ⟨l, s, hl, hva, ?_⟩
              rw [hbody]
              rcases hdrScan_value hst with ⟨_, h0⟩ | ⟨num, toks, h1, h2, h3⟩
              · exfalso
                unfold BadSize at hbad
                rw [h0] at hbad
                omega
              · have := parseInt32_lt h3
                refine ⟨num, toks, st.size, h1, h2, h3, ?_, by rw [hst]; rfl⟩
                unfold BadSize at hbad
                rcases hbad with h | h | h
                · exact .inl h
                · omega
                · exact .inr h
  · rintro ⟨l, s, hl, hva, num, toks, n, h1, h2, h3, h4, h5⟩
    cases hst : Meta.hdrScan {} (l.drop 3) with
    | err e => rw [hst] at h5; simp [Res.isOk] at h5
    | panic => rw [hst] at h5; simp [Res.isOk] at h5
    | ok st =>
      have hsz : st.size = n := by
        rcases hdrScan_value hst with ⟨h0, _⟩ | ⟨num', toks', e1, e2, e3⟩
        · rw [h1] at h0; simp at h0
        · rw [h1] at e1
          have := congrArg splitSp e1
          rw [splitSp_append _ _ h2, splitSp_append _ _ e2] at this
          simp only [List.cons.injEq] at this
          rw [this.1, e3] at h3
          simpa using h3
      obtain ⟨r, hr⟩ := (bytes_panic (s := s) (size := st.size) (hcont st)).2 (by
        unfold BadSize; rw [hsz]; rcases h4 with h | h
        · exact .inl h
        · exact .inr (.inr h))
      refine ⟨r, ?_⟩
      unfold Meta.parseGetResponse
      have hlen := va_len hl.2.1 hva
      have hd : sliceFrom l 3 = .ok (l.drop 3) :=
        sliceFrom_ok.2 ⟨l.take 3, (List.take_append_drop 3 l).symm, by rw [List.length_take]; omega⟩
      rw [Rd.bind_of_ok (readSlice_iff.2 hl), Rd.ite_apply', if_neg, Rd.ite_apply', if_neg, Rd.ite_apply', if_neg, hd,
        Rd.bind_of_ok (Rd.lift_apply _ _), hst, Rd.bind_of_ok (Rd.lift_apply _ _)]
      · exact hr
      · have : hasPrefix l b!"VA" = true := List.isPrefixOf_iff_prefix.2 hva
        simp [this]
      · rintro rfl; simp [Meta.msgNoop] at hva
      · rintro rfl; simp [Meta.msgEnd] at hva

/-- C51, meta Get: panics exactly on `VA` lines with a negative size. -/
theorem C51_meta_get (k i : Bytes) : Panics (Meta.get k) i ↔ ∃ l s, Reply i l s ∧ BadMeta l s := by
  rw [← meta_parse_panic, panics_iff]
  refine exists_congr fun r => ?_
  show (Meta.parseGetResponse >>= _) i = _ ↔ _
  rw [Rd.bind_apply]
  cases Meta.parseGetResponse i with
  | mk x r' => cases x <;> simp

/-- C51, meta GetMulti: panics only if such a line is in the stream, and does so when it comes first. -/
theorem C51_meta_getMulti (ks : List Bytes) (i : Bytes) :
    (Panics (Meta.getMulti ks) i → ∃ pre l s, i = pre ++ l ++ s ∧ Line l ∧ BadMeta l s)
      ∧ ((∃ l s, Reply i l s ∧ BadMeta l s) → Panics (Meta.getMulti ks) i) := by
  constructor
  · have key : ∀ n acc i, i.length < n → (Meta.multiLoop n acc i).1 = .panic →
        ∃ pre l s, i = pre ++ l ++ s ∧ Line l ∧ BadMeta l s := by
      intro n
      induction n with
      | zero => intro acc i hn; omega
      | succ n ih =>
        intro acc i hn h
        unfold Meta.multiLoop at h
        cases hq : Meta.parseGetResponse i with
        | mk x r =>
          rw [hq] at h
          cases x with
          | panic =>
            obtain ⟨l, s, hl, hb⟩ := meta_parse_panic.1 ⟨r, hq⟩
            exact ⟨[], l, s, hl.1, hl.2.1, hb⟩
          | err e => cases e <;> simp at h
          | ok item =>
            obtain ⟨hdr, pad, st, e, hl, _⟩ := meta_parse_ok i r item hq
            have hlpos : 0 < hdr.length := by obtain ⟨p, rfl, _⟩ := hl; simp
            obtain ⟨pre, l, s, rfl, h1, h2⟩ := ih _ r (by rw [e] at hn; simp at hn; omega) h
            exact ⟨hdr ++ item.value ++ pad ++ pre, l, s, by rw [e]; simp, h1, h2⟩
    exact key _ _ i (by omega)
  · intro h
    obtain ⟨r, hr⟩ := meta_parse_panic.2 h
    show (Meta.multiLoop (i.length + 1) [] i).1 = _
    unfold Meta.multiLoop
    rw [hr]

/-- Non-vacuity. -/
example : Panics (Meta.get b!"k") b!"VA -5 f1\r\n" ∧ Panics (Meta.getMulti [b!"k", b!"j"]) b!"VA 1 f1 kk\r\nx\r\nVA -2 \r\n"
    ∧ ¬ Panics (Meta.get b!"k") b!"VA -1 f1\r\n" := by
  unfold Panics; decide +kernel

/-! ### Binary -/

/-- Where the client takes the value of a binary reply to begin: extras and key length, added as 16-bit numbers. -/
def valueAt (h : Bytes) : Nat := (extraLenOf h + keyLenOf h) % 2 ^ 16

/-- C51, binary Get: panics exactly when a complete reply of status 0 has a body shorter than its extras, or than
extras and key. -/
theorem C51_binary_get (hd : Bin.ReqHdr) (k i : Bytes) : Panics (Bin.get hd k) i
    ↔ ∃ h b s, BinReply i h b s ∧ statusOf h = 0 ∧ (b.length < valueAt h ∨ b.length < extraLenOf h) := by
  rw [panics_iff]
  constructor
  · rintro ⟨r, he⟩
    have he' : (Bin.readHdr >>= _) i = (Res.panic, r) := he
    obtain ⟨h, r', rfl, hh, he2⟩ := (hdr_iff (by simp) (by simp)).1 he'
    obtain ⟨b, s, rfl, hb, he3⟩ := (full_iff (by simp)).1 he2
    rw [Rd.ite_apply'] at he3
    split at he3
    · rw [Rd.ite_apply'] at he3; split at he3 <;> simp at he3
    · rename_i hs
      refine ⟨h, b, s, ⟨by simp, hh, hb⟩, Decidable.not_not.1 hs, ?_⟩
      rcases lift_panic_iff.1 he3 with ⟨h1, _⟩ | ⟨v, _, he4⟩
      · exact .inl (sliceFrom_panic.1 h1)
      · rcases lift_panic_iff.1 he4 with ⟨h1, _⟩ | ⟨f, _, he5⟩
        · rcases sliceTo_panic.1 h1 with h1 | h1
          · omega
          · exact .inr (by show _ < (Bin.ResHdr.ofBytes h).extraLength; omega)
        · simp at he5
  · rintro ⟨h, b, s, ⟨rfl, hh, hb⟩, hs, hlt⟩
    have hs' : (Bin.ResHdr.ofBytes h).status = 0 := hs
    refine ⟨s, ?_⟩
    show (Bin.readHdr >>= _) _ = _
    refine (hdr_iff (by simp) (by simp)).2 ⟨h, b ++ s, by simp, hh, (full_iff (by simp)).2 ⟨b, s, rfl, hb, ?_⟩⟩
    rw [Rd.ite_apply', if_neg (by simp [hs'])]
    by_cases h1 : b.length < valueAt h
    · exact lift_panic_iff.2 (.inl ⟨sliceFrom_panic.2 h1, rfl⟩)
    · refine lift_panic_iff.2 (.inr ⟨b.drop (valueAt h), ?_, ?_⟩)
      · exact sliceFrom_ok.2 ⟨b.take (valueAt h), (List.take_append_drop _ _).symm,
          by rw [List.length_take]; show min _ _ = valueAt h; omega⟩
      · refine lift_panic_iff.2 (.inl ⟨sliceTo_panic.2 (.inr ?_), rfl⟩)
        have : b.length < extraLenOf h := by omega
        show (b.length : Int) < ((extraLenOf h : Nat) : Int)
        omega

/-- C51, binary Increment/Decrement: panics exactly when a complete successful reply has a body of less than 8
bytes. -/
theorem C51_binary_arith (hd : Bin.ReqHdr) (op : UInt8) (k : Bytes) (d e : Int) (i : Bytes) :
    Panics (Bin.incrOrDecr hd op k d e) i
      ↔ ∃ h b s, BinReply i h b s ∧ opcodeOf h = op ∧ statusOf h = 0 ∧ b.length < 8 := by
  have hbe : ∀ b, beUint 8 b = .panic ↔ b.length < 8 := by
    intro b; unfold beUint; split
    · simp; omega
    · simp; omega
  rw [panics_iff]
  constructor
  · rintro ⟨r, he⟩
    have he' : (Bin.readHdr >>= _) i = (Res.panic, r) := he
    obtain ⟨h, r', rfl, hh, he2⟩ := (hdr_iff (by simp) (by simp)).1 he'
    rw [Rd.ite_apply'] at he2
    split at he2
    · simp at he2
    · rename_i ho
      obtain ⟨b, s, rfl, hb, he3⟩ := (full_iff (by simp)).1 he2
      rw [Rd.ite_apply'] at he3
      split at he3
      · cases hq : List.lookup (Bin.ResHdr.ofBytes h).status Bin.binaryStatus <;> rw [hq] at he3 <;> simp at he3
      · rename_i hs
        refine ⟨h, b, s, ⟨by simp, hh, hb⟩, Decidable.not_not.1 ho, Decidable.not_not.1 hs, ?_⟩
        rcases lift_panic_iff.1 he3 with ⟨h1, _⟩ | ⟨v, _, he4⟩
        · exact (hbe b).1 h1
        · simp at he4
  · rintro ⟨h, b, s, ⟨rfl, hh, hb⟩, ho, hs, hlt⟩
    have hs' : (Bin.ResHdr.ofBytes h).status = 0 := hs
    have ho' : (Bin.ResHdr.ofBytes h).opcode = op := ho
    refine ⟨s, ?_⟩
    show (Bin.readHdr >>= _) _ = _
    refine (hdr_iff (by simp) (by simp)).2 ⟨h, b ++ s, by simp, hh, ?_⟩
    rw [Rd.ite_apply', if_neg (by simp [ho'])]
    refine (full_iff (by simp)).2 ⟨b, s, rfl, hb, ?_⟩
    rw [Rd.ite_apply', if_neg (by simp [hs'])]
    exact lift_panic_iff.2 (.inl ⟨(hbe b).2 hlt, rfl⟩)

/-- One reply to a binary GetMulti. -/
structure BinBlock where
  hdr : Bytes
  body : Bytes

def BinBlock.bytes (b : BinBlock) : Bytes := b.hdr ++ b.body

/-- A complete hit: extras and key lie within the body. -/
structure BinBlock.Good (b : BinBlock) : Prop where
  head : BinHead b.hdr
  op : opcodeOf b.hdr ≠ 10
  status : statusOf b.hdr = 0
  len : b.body.length = bodyLenOf b.hdr
  key : extraLenOf b.hdr ≤ valueAt b.hdr
  value : valueAt b.hdr ≤ b.body.length

/-- C51, binary GetMulti: panics exactly when after some complete hits one comes whose extras and key do not lie
within its body. -/
theorem C51_binary_getMulti (h1 h2 : Bin.ReqHdr) (ks : List Bytes) (i : Bytes) : Panics (Bin.getMulti h1 h2 ks) i
    ↔ ∃ (blocks : List BinBlock) (h b s : Bytes), i = blocks.flatMap BinBlock.bytes ++ h ++ b ++ s
        ∧ (∀ b ∈ blocks, b.Good) ∧ BinHead h ∧ opcodeOf h ≠ 10 ∧ statusOf h = 0 ∧ b.length = bodyLenOf h
        ∧ (valueAt h < extraLenOf h ∨ b.length < valueAt h) := by
  rw [panics_iff]
  show (∃ r, Bin.multiLoop (i.length + 1) [] i = (.panic, r)) ↔ _
  constructor
  · have key : ∀ n acc i, i.length < n → (∃ r, Bin.multiLoop n acc i = (.panic, r)) →
        ∃ (blocks : List BinBlock) (h b s : Bytes), i = blocks.flatMap BinBlock.bytes ++ h ++ b ++ s
          ∧ (∀ b ∈ blocks, b.Good) ∧ BinHead h ∧ opcodeOf h ≠ 10 ∧ statusOf h = 0 ∧ b.length = bodyLenOf h
          ∧ (valueAt h < extraLenOf h ∨ b.length < valueAt h) := by
      intro n
      induction n with
      | zero => intro acc i hn; omega
      | succ n ih =>
        rintro acc i hn ⟨r, he⟩
        unfold Bin.multiLoop at he
        obtain ⟨h, r', rfl, hh, he2⟩ := (hdr_iff (by simp) (by simp)).1 he
        rw [Rd.ite_apply'] at he2
        split at he2
        · simp at he2
        · rename_i ho
          rw [Rd.ite_apply'] at he2
          split at he2
          · simp at he2
          · rename_i hs
            have hs' : statusOf h = 0 := Decidable.not_not.1 hs
            obtain ⟨b, s, rfl, hb, he3⟩ := (full_iff (by simp)).1 he2
            rcases lift_panic_iff.1 he3 with ⟨hp, _⟩ | ⟨kk, hk, he4⟩
            · exact ⟨[], h, b, s, by simp, by simp, hh, ho, hs', hb, slice_panic.1 hp⟩
            · obtain ⟨hk1, hk2, _⟩ := slice_ok.1 hk
              rcases lift_panic_iff.1 he4 with ⟨hp, _⟩ | ⟨v, hv, he5⟩
              · have := sliceFrom_panic.1 hp; omega
              · rcases lift_panic_iff.1 he5 with ⟨hp, _⟩ | ⟨f, hf, he6⟩
                · rcases sliceTo_panic.1 hp with hp | hp <;> omega
                · obtain ⟨bs, h', b', s', rfl, hg, rest⟩ := ih _ s (by simp [hh.1] at hn; omega) ⟨r, he6⟩
                  refine ⟨⟨h, b⟩ :: bs, h', b', s', by simp [BinBlock.bytes], ?_, rest⟩
                  intro x hx
                  simp only [List.mem_cons] at hx
                  rcases hx with rfl | hx
                  · exact ⟨hh, ho, hs', hb, hk1, hk2⟩
                  · exact hg x hx
    exact key _ _ i (by omega)
  · rintro ⟨blocks, h, b, s, rfl, hg, hh, ho, hs, hb, hbad⟩
    have key : ∀ (bs : List BinBlock) n acc, (∀ b ∈ bs, b.Good) → bs.length < n →
        ∃ r, Bin.multiLoop n acc (bs.flatMap BinBlock.bytes ++ h ++ b ++ s) = (.panic, r) := by
      intro bs
      induction bs with
      | nil =>
        intro n acc _ hn
        obtain ⟨m, rfl⟩ : ∃ k, n = k + 1 := ⟨n - 1, by simp at hn; omega⟩
        refine ⟨s, ?_⟩
        unfold Bin.multiLoop
        refine (hdr_iff (by simp) (by simp)).2 ⟨h, b ++ s, by simp, hh, ?_⟩
        rw [Rd.ite_apply', if_neg (show ¬ (Bin.ResHdr.ofBytes h).opcode = Bin.opNoop from ho), Rd.ite_apply',
          if_neg (show ¬ (Bin.ResHdr.ofBytes h).status ≠ 0 from fun hx => hx hs)]
        exact (full_iff (by simp)).2 ⟨b, s, rfl, hb, lift_panic_iff.2 (.inl ⟨slice_panic.2 hbad, rfl⟩)⟩
      | cons x bs ih =>
        intro n acc hg hn
        obtain ⟨m, rfl⟩ : ∃ k, n = k + 1 := ⟨n - 1, by simp at hn; omega⟩
        have hx := hg x (by simp)
        have hle := hx.key
        have hle2 := hx.value
        obtain ⟨r, hr⟩ := ih m (acc ++ [{ key := (x.body.take (valueAt x.hdr)).drop (extraLenOf x.hdr), value := x.body.drop (valueAt x.hdr), flags := some (x.body.take (extraLenOf x.hdr)) }])
          (fun y hy => hg y (by simp [hy])) (by simp at hn; omega)
        refine ⟨r, ?_⟩
        unfold Bin.multiLoop
        refine (hdr_iff (by simp) (by simp)).2 ⟨x.hdr, x.body ++ (bs.flatMap BinBlock.bytes ++ h ++ b ++ s),
          by simp [BinBlock.bytes], hx.head, ?_⟩
        rw [Rd.ite_apply', if_neg (show ¬ (Bin.ResHdr.ofBytes x.hdr).opcode = Bin.opNoop from hx.op), Rd.ite_apply',
          if_neg (show ¬ (Bin.ResHdr.ofBytes x.hdr).status ≠ 0 from fun hy => hy hx.status)]
        refine (full_iff (by simp)).2 ⟨x.body, _, rfl, hx.len, ?_⟩
        refine lift_panic_iff.2 (.inr ⟨(x.body.take (valueAt x.hdr)).drop (extraLenOf x.hdr), slice_ok.2 ⟨hle, hle2, rfl⟩, ?_⟩)
        refine lift_panic_iff.2 (.inr ⟨x.body.drop (valueAt x.hdr), sliceFrom_ok.2 ⟨x.body.take (valueAt x.hdr),
          (List.take_append_drop _ _).symm, by rw [List.length_take]; show min _ _ = valueAt x.hdr; omega⟩, ?_⟩)
        refine lift_panic_iff.2 (.inr ⟨x.body.take (extraLenOf x.hdr), sliceTo_ok.2 ⟨x.body.drop (extraLenOf x.hdr),
          (List.take_append_drop _ _).symm, ?_⟩, hr⟩)
        rw [List.length_take]
        show ((min _ _ : Nat) : Int) = ((extraLenOf x.hdr : Nat) : Int)
        omega
    refine key blocks _ _ hg ?_
    have : ∀ bs : List BinBlock, (∀ b ∈ bs, b.Good) → bs.length ≤ (bs.flatMap BinBlock.bytes).length := by
      intro bs
      induction bs with
      | nil => simp
      | cons b bs ih =>
        intro h
        have := (h b (by simp)).head.1
        have := ih fun x hx => h x (by simp [hx])
        simp only [List.flatMap_cons, List.length_cons, List.length_append, BinBlock.bytes]
        omega
    have := this blocks hg
    simp only [List.length_append]
    omega

/-- Non-vacuity: a key longer than the body; a counter of four bytes. -/
example : Panics (Bin.get {} b!"k") ([0x81, 0, 0, 9, 4, 0, 0, 0, 0, 0, 0, 4] ++ List.replicate 12 0 ++ [0, 0, 0, 9])
    ∧ Panics (Bin.getMulti {} {} [b!"k"]) ([0x81, 13, 0, 9, 4, 0, 0, 0, 0, 0, 0, 4] ++ List.replicate 12 0 ++ [0, 0, 0, 9])
    ∧ Panics (Bin.increment {} b!"k" 1 0) ([0x81, 5, 0, 0, 0, 0, 0, 0, 0, 0, 0, 4] ++ List.replicate 12 0 ++ [0, 0, 0, 9]) := by
  unfold Panics; decide +kernel

/-! ### Arguments -/

/-- C51, arguments: a storing operation of a meta or binary connection panics before sending anything exactly when
the item's flags are a non-nil slice shorter than four bytes (meta Add and Replace tolerate them); all other
operations, and all of a text connection, never panic while building the request. -/
theorem C51_arguments (hd : Bin.ReqHdr) (item : Item) :
    ((Meta.set item).wire = .panic ↔ ∃ f, item.flags = some f ∧ f.length < 4)
      ∧ ((Bin.set hd item).wire = .panic ↔ ∃ f, item.flags = some f ∧ f.length < 4)
      ∧ ((Bin.add hd item).wire = .panic ↔ ∃ f, item.flags = some f ∧ f.length < 4)
      ∧ ((Bin.replace hd item).wire = .panic ↔ ∃ f, item.flags = some f ∧ f.length < 4)
      ∧ (Text.set item).wire ≠ .panic ∧ (Text.add item).wire ≠ .panic ∧ (Text.replace item).wire ≠ .panic
      ∧ (Meta.add item).wire ≠ .panic ∧ (Meta.replace item).wire ≠ .panic := by
  have hbin : ∀ op, Bin.storeWire hd op item = .panic ↔ ∃ f, item.flags = some f ∧ f.length < 4 := by
    intro op
    unfold Bin.storeWire Bin.storeExtra
    cases hf : item.flags with
    | none => simp
    | some f =>
      simp only [Option.some.injEq, exists_eq_left']
      cases hs : sliceTo f 4 with
      | ok v =>
        obtain ⟨t, ht, hv⟩ := sliceTo_ok.1 hs
        subst ht
        simp
        omega
      | err e => exact absurd hs (sliceTo_ne _ _ _)
      | panic =>
        have := sliceTo_panic.1 hs
        simp
        omega
  refine ⟨?_, hbin _, hbin _, hbin _, by simp [Text.set], by simp [Text.add], by simp [Text.replace],
    by simp [Meta.add], by simp [Meta.replace]⟩
  show Meta.setWire item = _ ↔ _
  unfold Meta.setWire
  cases hf : item.flags with
  | none => simp
  | some f =>
    simp only [Option.some.injEq, exists_eq_left']
    unfold beUint
    split
    · simp; omega
    · simp; omega

end Props
end Verif
