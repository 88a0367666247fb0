import Verif.Lemmas.Mc
import Verif.Props.TextReplies
/-! Helper lemmas: one text call against the reference memcached. -/

namespace Verif
namespace Mc
open Kv Spec

theorem flagsOf_lt (item : Item) : flagsOf item < 2 ^ 32 := by
  have := getBE_lt (flagBytes item.flags)
  rw [flagBytes_length] at this
  simpa [flagsOf] using this

theorem maxValue31 {n : Nat} (h : n ≤ maxValue) : n < 2 ^ 31 :=
  Nat.lt_of_le_of_lt h (by decide)

/-- An item whose request is one command: no space and no line feed in the key, and numbers
memcached accepts. -/
structure PlainItem (item : Item) : Prop where
  key : Plain item.key
  value : item.value.length < 2 ^ 31
  exp : InRange 32 item.expiration
  cas : item.cas < 2 ^ 64

theorem plainItem {item : Item} (h : GoodItem item) : PlainItem item :=
  ⟨keyPlain h.key, maxValue31 h.value, h.exp, h.cas⟩

theorem storeLine_eq (m : Mode) (key : Bytes) (f n : Nat) (e : Int) (hf : f < 2 ^ 32)
    (he : InRange 32 e) (hn : n < 2 ^ 31) :
    storeLine m key (natDec f) (intDec e) (natDec n) = some (.data n (.store m key f e)) := by
  unfold storeLine
  rw [parseUint_natDec f 32 hf, parseInt_intDec e 32 he (by omega), parseUint_natDec n 31 hn]
  rfl

theorem sends_store (cmd : Bytes) (m : Mode) (item : Item) (hi : PlainItem item)
    (hcmd : Plain cmd)
    (hp : ∀ k f e n, parseLine [cmd, k, f, e, n] = storeLine m k f e n) :
    Sends (Text.storeWire cmd item)
      (some (.store m item.key (flagsOf item) item.expiration item.value)) := by
  have h := sends_data [cmd, item.key, natDec (flagsOf item), intDec item.expiration,
      natDec item.value.length] (.store m item.key (flagsOf item) item.expiration) item.value
    (by simp) (by
      intro w hw
      simp only [List.mem_cons, List.not_mem_nil, or_false] at hw
      rcases hw with rfl | rfl | rfl | rfl | rfl
      · exact hcmd
      · exact hi.key
      · exact natDec_plain _
      · exact intDec_plain _
      · exact natDec_plain _)
    (by rw [hp, storeLine_eq _ _ _ _ _ (flagsOf_lt item) hi.exp hi.value])
  have e : Text.storeWire cmd item = joinSp [cmd, item.key, natDec (flagsOf item),
      intDec item.expiration, natDec item.value.length] ++ crlf ++ (item.value ++ crlf) := by
    simp [Text.storeWire, joinSp, flagsNum_eq, flagsOf]
  rw [e]; exact h

theorem sends_cas (item : Item) (hi : PlainItem item) :
    Sends (b!"cas " ++ item.key ++ 32 :: natDec (Text.flagsNum item.flags) ++ 32 :: intDec item.expiration
      ++ 32 :: natDec item.value.length ++ 32 :: natDec item.cas ++ crlf ++ (item.value ++ crlf))
      (some (.store (.cas item.cas) item.key (flagsOf item) item.expiration item.value)) := by
  have h := sends_data [b!"cas", item.key, natDec (flagsOf item), intDec item.expiration,
      natDec item.value.length, natDec item.cas]
      (.store (.cas item.cas) item.key (flagsOf item) item.expiration) item.value
    (by simp) (by
      intro w hw
      simp only [List.mem_cons, List.not_mem_nil, or_false] at hw
      rcases hw with rfl | rfl | rfl | rfl | rfl | rfl
      · decide
      · exact hi.key
      · exact natDec_plain _
      · exact intDec_plain _
      · exact natDec_plain _
      · exact natDec_plain _)
    (by
      show ((parseUint (natDec item.cas) 64).bind fun c => storeLine (.cas c) _ _ _ _) = _
      rw [parseUint_natDec _ 64 hi.cas, Option.bind_some,
        storeLine_eq _ _ _ _ _ (flagsOf_lt item) hi.exp hi.value])
  simpa [joinSp, flagsNum_eq, flagsOf] using h

theorem sends_set (item : Item) (hi : PlainItem item) :
    Sends (Text.setWire item)
      (some (.store (if 0 < item.cas then .cas item.cas else .set) item.key (flagsOf item)
        item.expiration item.value)) := by
  by_cases hc : 0 < item.cas
  · have := sends_cas item hi
    unfold Text.setWire
    rw [if_pos hc, if_pos hc]
    exact this
  · have := sends_store b!"set" .set item hi (by decide) (fun _ _ _ _ => rfl)
    have e : Text.setWire item = Text.storeWire b!"set" item := by
      simp [Text.setWire, hc, Text.storeWire]
    rw [e, if_neg hc]
    exact this

/-! ### results -/

theorem map_rd {α β : Type} (f : α → β) (c : Call α) (i r : Bytes) (x : Res α)
    (h : c.rd i = (x, r)) :
    (c.map f).rd i = (x.map f, r) := by
  simp only [Call.map, h]

theorem valueBlocks_eq (s : Store) (ks : List Bytes) :
    valueBlocks s ks = (ks.filterMap fun k => (s.find k).map fun e =>
      ({ key := k, flags := e.flags, value := e.value, cas := some e.cas } : Block)).flatMap valueBlock := by
  induction ks with
  | nil => rfl
  | cons k ks ih =>
    rw [valueBlocks, ih]
    cases hf : s.find k with
    | none => simp [hf]
    | some e => simp [hf, valueBlock, valueLine, casPart]

theorem find_data {s : Store} {k : Bytes} {e : Entry} (h : s.find k = some e) : s.data k = some e := by
  unfold Store.find at h
  cases hd : s.data k with
  | none => simp [hd] at h
  | some e' =>
    simp only [hd] at h
    split at h
    · exact h
    · cases h

theorem key_len {k : Bytes} (h : Key k) : k.length ≤ 4000 := by
  have := h.2; omega

theorem value_alloc {n : Nat} (h : n ≤ maxValue) : n + 2 ≤ maxAlloc := le_maxAlloc (maxValue31 h)

theorem cas64 {s : Store} (hs : GoodStore s) {k : Bytes} {e : Entry} (h : s.data k = some e) :
    e.cas < 2 ^ 64 := by
  have h1 := (hs.entry k e h).2.1
  have h2 := hs.cas
  have : (2 : Nat) ^ 63 < 2 ^ 64 := by decide
  omega

theorem natDec_reply_big (op key : Bytes) (delta : Int) (n : Nat) (hn : 2 ^ 63 ≤ n) (h64 : n < 2 ^ 64)
    (rest : Bytes) :
    (Text.incrOrDecr op key delta).rd (natDec n ++ crlf ++ rest) = (.err .num, rest) := by
  have hl := natDec_length64 n h64
  have h1 : readSlice (natDec n ++ crlf ++ rest) = (.ok (natDec n ++ crlf), rest) := by
    have := Props.readSlice_lit (natDec n ++ [13]) (by simp [natDec_no10]) (by simp; omega) rest
    simpa [crlf] using this
  show (readSlice >>= _) _ = _
  rw [Rd.bind_of_ok h1]
  have hsl : sliceTo (natDec n ++ crlf) (((natDec n ++ crlf).length : Int) - 2) = .ok (natDec n) := by
    have := sliceTo_append (natDec n) crlf
    have e : (((natDec n ++ crlf).length : Int) - 2) = ((natDec n).length : Int) := by simp [crlf]
    rw [e]; exact this
  rw [if_neg (Props.natDec_not_notFound n), hsl, Rd.bind_of_ok (Rd.lift_apply _ _),
    parseInt_natDec_ge n 64 hn]
  rfl

theorem parseUint_lt {s : Bytes} {bits n : Nat} (h : parseUint s bits = some n) : n < 2 ^ bits := by
  unfold parseUint at h
  cases s with
  | nil => simp at h
  | cons b r =>
    cases hd : decVal (b :: r) 0 with
    | none => simp [hd] at h
    | some m =>
      simp only [hd] at h
      split at h
      · simp only [Option.some.injEq] at h; omega
      · cases h

theorem counterOf_lt {v : Bytes} {n : Nat} (h : counterOf v = some n) : n < 2 ^ 64 := by
  unfold counterOf at h
  cases hp : parseUint (v.takeWhile isDigit) 64 with
  | none => simp [hp] at h
  | some m =>
    simp only [hp, Option.bind_some] at h
    split at h
    · simp only [Option.some.injEq] at h
      have := parseUint_lt hp
      omega
    · cases h

theorem count_lt (up : Bool) (n d : Nat) (h : n < 2 ^ 64) : count up n d < 2 ^ 64 := by
  unfold count
  split
  · exact Nat.mod_lt _ (by decide)
  · omega

/-- `incr`/`decr` over the text protocol; also the meta client sends it. -/
theorem arith_exchange (c : Call Out) (op : Bytes) (up : Bool) (key : Bytes) (delta : Int) (s : Store)
    (hc : c = (Text.incrOrDecr op key delta).map .num) (hop : Plain op)
    (hp : ∀ k d, parseLine [op, k, d] = (parseUint d 64).map fun d => .done (.arith up k d))
    (hk : Key key) (hd : InRange 64 delta) :
    exchange c s = some (arithApi s up key delta) := by
  subst hc
  have hplain : ∀ w ∈ [op, key, intDec delta], Plain w := by
    intro w hw
    simp only [List.mem_cons, List.not_mem_nil, or_false] at hw
    rcases hw with rfl | rfl | rfl
    · exact hop
    · exact keyPlain hk
    · exact intDec_plain _
  have hwire : ((Text.incrOrDecr op key delta).map Out.num).wire
      = .ok (joinSp [op, key, intDec delta] ++ crlf) := by
    simp [Call.map, Text.incrOrDecr, joinSp]
  by_cases hneg : delta < 0
  · have hpl : parseLine [op, key, intDec delta] = (none : Option Cmd).map .done := by
      rw [hp]
      have : parseUint (intDec delta) 64 = none := by
        unfold intDec; rw [if_pos hneg]; rfl
      rw [this]; rfl
    rw [exchange_of hwire (sends_line _ none (by simp) hplain hpl) (res := .err .num) rfl (by simp)]
    simp [arithApi, hneg, execLine]
  · have hd' : delta = (delta.toNat : Int) := by omega
    have hlt : delta.toNat < 2 ^ 64 := by
      have := hd.2
      have e : (2 : Nat) ^ 63 < 2 ^ 64 := by decide
      have : delta.toNat < 2 ^ 63 := by omega
      omega
    have hpl : parseLine [op, key, intDec delta] = (some (Cmd.arith up key delta.toNat)).map .done := by
      rw [hp]
      have : intDec delta = natDec delta.toNat := by unfold intDec; rw [if_neg hneg]
      rw [this, parseUint_natDec _ 64 hlt]; rfl
    have hsend := sends_line _ _ (by simp) hplain hpl
    have hrd : ((Text.incrOrDecr op key delta).map Out.num).rd
        (execLine s (some (Cmd.arith up key delta.toNat))).1
        = (counted (s.arith up key delta.toNat).1, []) := by
      show (Call.map _ _).rd (match (s.arith up key delta.toNat).1 with
        | .value n => natDec n ++ crlf
        | .notFound => b!"NOT_FOUND\r\n"
        | .notNumber => b!"CLIENT_ERROR cannot increment or decrement non-numeric value\r\n") = _
      cases hr : (s.arith up key delta.toNat).1 with
      | notFound => rfl
      | notNumber => rfl
      | value n =>
        have hn : n < 2 ^ 64 := by
          unfold Store.arith at hr
          cases hf : s.find key with
          | none => simp [hf] at hr
          | some e =>
            cases hc : counterOf e.value with
            | none => simp [hf, hc] at hr
            | some m =>
              simp only [hf, hc, Counted.value.injEq] at hr
              rw [← hr]
              exact count_lt _ _ _ (counterOf_lt hc)
        by_cases h63 : n < 2 ^ 63
        · have := Props.text_incr_reply op key delta n h63 []
          rw [List.append_nil] at this
          rw [map_rd _ _ _ _ _ this]
          simp only [counted, Res.map]
          rw [if_pos h63]
        · have := natDec_reply_big op key delta n (Nat.le_of_not_lt h63) hn []
          rw [List.append_nil] at this
          rw [map_rd _ _ _ _ _ this]
          simp only [counted, Res.map]
          rw [if_neg h63]
    rw [exchange_of hwire hsend hrd]
    · simp [arithApi, hneg, execLine, exec]
    · unfold counted
      split
      · split <;> simp
      · simp
      · simp

end Mc
end Verif
