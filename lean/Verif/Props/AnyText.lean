import Verif.Spec.Grammar
import Verif.Props.AnyMeta
import Verif.Props.ServerPanics
/-!
C65: the text requests of any client.  The server's reader accepts exactly the grammar of `Spec/Grammar.lean`.
-/

namespace Verif
namespace Props
open Srv Spec

/-! ### Numbers -/

theorem decVal_iff {t : Bytes} {a n : Nat} : decVal t a = some n ↔
    (∀ c ∈ t, 48 ≤ c.toNat ∧ c.toNat ≤ 57) ∧ n = t.foldl (fun a c => 10 * a + digitVal c) a := by
  induction t generalizing a with
  | nil => simp [decVal, eq_comm]
  | cons c t ih =>
    simp only [decVal, List.forall_mem_cons, List.foldl_cons]
    by_cases hd : isDigit c = true
    · rw [if_pos hd, ih, Nat.mul_comm a 10]
      have := (isDigit_iff c).1 hd
      constructor
      · rintro ⟨h1, h2⟩; exact ⟨⟨this, h1⟩, h2⟩
      · rintro ⟨⟨_, h1⟩, h2⟩; exact ⟨h1, h2⟩
    · rw [if_neg hd]
      constructor
      · intro h; cases h
      · rintro ⟨⟨h, _⟩, _⟩; exact absurd ((isDigit_iff c).2 h) hd

theorem parseUint_iff {t : Bytes} {b n : Nat} : parseUint t b = some n ↔ UNum b t n := by
  unfold UNum Digits
  cases t with
  | nil => simp [parseUint]
  | cons c t =>
    unfold parseUint
    dsimp only
    constructor
    · intro h
      cases hd : decVal (c :: t) 0 with
      | none => rw [hd] at h; cases h
      | some m =>
        rw [hd] at h
        dsimp only at h
        split at h
        · rename_i hm
          cases h
          obtain ⟨h1, h2⟩ := decVal_iff.1 hd
          exact ⟨⟨by simp, h1, h2⟩, hm⟩
        · cases h
    · rintro ⟨⟨_, h1, h2⟩, hm⟩
      rw [decVal_iff.2 ⟨h1, h2⟩]
      simp [hm]

theorem digits_head {c : UInt8} {t : Bytes} {n : Nat} (h : Digits (c :: t) n) : c ≠ 45 ∧ c ≠ 43 := by
  have := h.2.1 c (by simp)
  constructor <;> rintro rfl <;> simp at this

theorem parseInt_iff {t : Bytes} {b : Nat} {i : Int} (hb : 0 < b) : parseInt t b = some i ↔ Num b t i := by
  have hlt : 2 ^ (b - 1) < 2 ^ b := Nat.pow_lt_pow_right (by omega) (by omega)
  have pu : ∀ {s : Bytes} {n : Nat}, Digits s n → n ≤ 2 ^ (b - 1) → parseUint s b = some n :=
    fun hd h => parseUint_iff.2 ⟨hd, by omega⟩
  unfold Num InRange
  constructor
  · intro h
    cases t with
    | nil => cases h
    | cons c t =>
      unfold parseInt at h
      dsimp only at h
      by_cases h1 : c = 45
      · rw [if_pos h1] at h
        cases hp : parseUint t b with
        | none => rw [hp] at h; cases h
        | some n =>
          rw [hp] at h
          dsimp only at h
          split at h
          · rename_i hn
            cases h
            subst h1
            exact ⟨.minus (parseUint_iff.1 hp).1, by omega, by have : 0 < 2 ^ (b - 1) := Nat.pow_pos (by omega); omega⟩
          · cases h
      · rw [if_neg h1] at h
        by_cases h2 : c = 43
        · rw [if_pos h2] at h
          cases hp : parseUint t b with
          | none => rw [hp] at h; cases h
          | some n =>
            rw [hp] at h
            dsimp only at h
            split at h
            · rename_i hn
              cases h
              subst h2
              exact ⟨.plus (parseUint_iff.1 hp).1, by omega, by omega⟩
            · cases h
        · rw [if_neg h2] at h
          cases hp : parseUint (c :: t) b with
          | none => rw [hp] at h; cases h
          | some n =>
            rw [hp] at h
            dsimp only at h
            split at h
            · rename_i hn
              cases h
              exact ⟨.plain (parseUint_iff.1 hp).1, by omega, by omega⟩
            · cases h
  · rintro ⟨hd, h1, h2⟩
    cases hd with
    | @plain _ n hd =>
      have hn : n < 2 ^ (b - 1) := by omega
      cases t with
      | nil => exact absurd rfl hd.1
      | cons c t =>
        obtain ⟨hc1, hc2⟩ := digits_head hd
        simp [parseInt, hc1, hc2, pu hd (by omega), hn]
    | @plus t n hd =>
      have hn : n < 2 ^ (b - 1) := by omega
      simp [parseInt, pu hd (by omega), hn]
    | @minus t n hd =>
      have hn : n ≤ 2 ^ (b - 1) := by omega
      simp [parseInt, pu hd (by omega), hn]

/-! ### Lines -/

theorem splitSp_mem (s : Bytes) : ∀ w ∈ splitSp s, (32 : UInt8) ∉ w := by
  induction s with
  | nil => simp [splitSp]
  | cons b r ih =>
    simp only [splitSp]
    by_cases hb : b = 32
    · rw [if_pos hb]
      simp only [List.forall_mem_cons]
      exact ⟨by simp, ih⟩
    · rw [if_neg hb]
      cases h : splitSp r with
      | nil => simp [Ne.symm hb]
      | cons w ws =>
        rw [h] at ih
        simp only [List.forall_mem_cons] at ih ⊢
        exact ⟨by simp [Ne.symm hb, ih.1], ih.2⟩

theorem textLine_iff {l : Bytes} {ws : List Bytes} : TextLine l ws ↔ Line l ∧ ws = splitSp (trimSuffix l crlf) := by
  constructor
  · rintro ⟨hne, hsp, ⟨h10, rfl⟩ | ⟨p, h10, h13, hj, rfl⟩⟩
    · refine ⟨⟨joinSp ws ++ [13], by simp [crlf], by simp [h10]⟩, ?_⟩
      rw [trimSuffix_append, splitSp_joinSp ws hne hsp]
    · refine ⟨⟨p, hj, h10⟩, ?_⟩
      have : trimSuffix (joinSp ws) crlf = joinSp ws := by
        unfold trimSuffix
        rw [if_neg]
        intro hs
        rw [List.isSuffixOf_iff_suffix, hj] at hs
        obtain ⟨q, hq⟩ := hs
        have hq' : q ++ [13] ++ [10] = p ++ [10] := by rw [← hq]; simp [crlf]
        have := List.append_cancel_right hq'
        exact h13 (by rw [← this]; simp)
      rw [this, splitSp_joinSp ws hne hsp]
  · rintro ⟨⟨p, rfl, h10⟩, rfl⟩
    refine ⟨splitSp_ne_nil _, splitSp_mem _, ?_⟩
    rw [joinSp_splitSp]
    by_cases h13 : p.getLast? = some 13
    · left
      obtain ⟨q, rfl⟩ : ∃ q, p = q ++ [13] := by
        obtain ⟨q, hq⟩ := List.getLast?_eq_some_iff.1 h13
        exact ⟨q, hq⟩
      have e : q ++ [13] ++ [10] = q ++ crlf := by simp [crlf]
      rw [e, trimSuffix_append]
      exact ⟨fun h => h10 (by simp [h]), rfl⟩
    · right
      refine ⟨p, h10, h13, ?_⟩
      have : trimSuffix (p ++ [10]) crlf = p ++ [10] := by
        unfold trimSuffix
        rw [if_neg]
        intro hs
        rw [List.isSuffixOf_iff_suffix] at hs
        obtain ⟨q, hq⟩ := hs
        have hq' : q ++ [13] ++ [10] = p ++ [10] := by rw [← hq]; simp [crlf]
        have := List.append_cancel_right hq'
        exact h13 (by rw [← this]; simp)
      rw [this]
      exact ⟨rfl, rfl⟩

/-! ### Tokens of `ms` -/

theorem msWord_iff {o o' : SetOpt} {w : Bytes} : msToken o w = .ok o' ↔ ∃ t, MsWord w t ∧ o' = msStep o t := by
  constructor
  · intro h
    cases w with
    | nil => cases h
    | cons c w =>
      unfold msToken at h
      dsimp only at h
      by_cases h1 : c = 67
      · rw [if_pos h1] at h
        obtain ⟨v, hv, h⟩ := bind_ok_iff.1 h
        cases h
        subst h1
        exact ⟨_, .cas (parseUint_iff.1 (numRes_ok.1 hv)), rfl⟩
      rw [if_neg h1] at h
      by_cases h2 : c = 70
      · rw [if_pos h2] at h
        obtain ⟨v, hv, h⟩ := bind_ok_iff.1 h
        cases h
        subst h2
        exact ⟨_, .flags ((parseInt_iff (by omega)).1 (numRes_ok.1 hv)), rfl⟩
      rw [if_neg h2] at h
      by_cases h3 : c = 73
      · rw [if_pos h3] at h
        cases h
        subst h3
        exact ⟨_, .invalidate, rfl⟩
      rw [if_neg h3] at h
      by_cases h4 : c = 107
      · rw [if_pos h4] at h
        cases h
        subst h4
        exact ⟨_, .key, rfl⟩
      rw [if_neg h4] at h
      by_cases h5 : c = 79
      · rw [if_pos h5] at h
        obtain ⟨v, hv, h⟩ := bind_ok_iff.1 h
        cases h
        subst h5
        exact ⟨_, .opaq ((parseInt_iff (by omega)).1 (numRes_ok.1 hv)), rfl⟩
      rw [if_neg h5] at h
      by_cases h6 : c = 113
      · rw [if_pos h6] at h
        cases h
        subst h6
        exact ⟨_, .quiet, rfl⟩
      rw [if_neg h6] at h
      by_cases h7 : c = 83
      · rw [if_pos h7] at h
        obtain ⟨v, hv, h⟩ := bind_ok_iff.1 h
        cases h
        subst h7
        exact ⟨_, .size ((parseInt_iff (by omega)).1 (numRes_ok.1 hv)), rfl⟩
      rw [if_neg h7] at h
      by_cases h8 : c = 84
      · rw [if_pos h8] at h
        obtain ⟨v, hv, h⟩ := bind_ok_iff.1 h
        cases h
        subst h8
        exact ⟨_, .ttl ((parseInt_iff (by omega)).1 (numRes_ok.1 hv)), rfl⟩
      rw [if_neg h8] at h
      cases h
      refine ⟨_, .other ?_, rfl⟩
      simp [h1, h2, h3, h4, h5, h6, h7, h8]
  · rintro ⟨t, h, rfl⟩
    cases h with
    | cas h => simp [msToken, parseUint_iff.2 h, numRes, msStep]
    | flags h => simp [msToken, (parseInt_iff (by omega)).2 h, numRes, msStep]
    | invalidate => simp [msToken, msStep]
    | key => simp [msToken, msStep]
    | opaq h => simp [msToken, (parseInt_iff (by omega)).2 h, numRes, msStep]
    | quiet => simp [msToken, msStep]
    | size h => simp [msToken, (parseInt_iff (by omega)).2 h, numRes, msStep]
    | ttl h => simp [msToken, (parseInt_iff (by omega)).2 h, numRes, msStep]
    | @other c t h =>
      simp only [List.mem_cons, List.not_mem_nil, or_false, not_or] at h
      obtain ⟨h1, h2, h3, h4, h5, h6, h7, h8⟩ := h
      simp [msToken, msStep, h1, h2, h3, h4, h5, h6, h7, h8]

theorem msWords_iff {o o' : SetOpt} {ws : List Bytes} :
    msTokens o ws = .ok o' ↔ ∃ ts, MsWords ws ts ∧ o' = ts.foldl msStep o := by
  induction ws generalizing o with
  | nil =>
    constructor
    · intro h; cases h; exact ⟨[], .nil, rfl⟩
    · rintro ⟨ts, h, rfl⟩; cases h; rfl
  | cons w ws ih =>
    show (msToken o w >>= fun o1 => msTokens o1 ws) = _ ↔ _
    rw [bind_ok_iff]
    constructor
    · rintro ⟨o1, h1, h2⟩
      obtain ⟨t, ht, rfl⟩ := msWord_iff.1 h1
      obtain ⟨ts, hts, rfl⟩ := ih.1 h2
      exact ⟨t :: ts, .cons ht hts, rfl⟩
    · rintro ⟨ts, h, rfl⟩
      cases h with
      | cons ht hts => exact ⟨_, msWord_iff.2 ⟨_, ht, rfl⟩, ih.2 ⟨_, hts, rfl⟩⟩

theorem mgOptions_unique {w : Bytes} {o o' : GetOpt} (ho : MgOptions w o) (ho' : MgOptions w o') : o = o' := by
  have hb : ∀ {a b : Bool} {p : Prop}, (a = true ↔ p) → (b = true ↔ p) → a = b := by
    intro a b p h1 h2
    cases a <;> cases b <;> simp_all
  cases o with
  | mk a1 a2 a3 a4 a5 a6 a7 a8 a9 a10 a11 a12 a13 =>
    cases o' with
    | mk b1 b2 b3 b4 b5 b6 b7 b8 b9 b10 b11 b12 b13 =>
      have e1 := ho.metaCmd.trans ho'.metaCmd.symm
      have e2 := ho.word.trans ho'.word.symm
      have e3 := hb ho.cas ho'.cas
      have e4 := hb ho.flag ho'.flag
      have e5 := hb ho.key ho'.key
      have e6 := hb ho.lastAccess ho'.lastAccess
      have e7 := hb ho.hit ho'.hit
      have e8 := hb ho.noReply ho'.noReply
      have e9 := hb ho.size ho'.size
      have e10 := hb ho.ttl ho'.ttl
      have e11 := hb ho.withOpaque ho'.withOpaque
      have e12 := ho.opaq.trans ho'.opaq.symm
      have e13 := hb ho.value ho'.value
      dsimp only at e1 e2 e3 e4 e5 e6 e7 e8 e9 e10 e11 e12 e13
      subst e1 e2 e3 e4 e5 e6 e7 e8 e9 e10 e11 e12 e13
      rfl

theorem msOptions_unique {n : Nat} {ts : List MsTok} {o o' : SetOpt} (ho : MsOptions n ts o)
    (ho' : MsOptions n ts o') : o = o' := by
  have hb : ∀ {a b : Bool} {p : Prop}, (a = true ↔ p) → (b = true ↔ p) → a = b := by
    intro a b p h1 h2
    cases a <;> cases b <;> simp_all
  cases o with
  | mk a1 a2 a3 a4 a5 a6 a7 a8 a9 a10 =>
    cases o' with
    | mk b1 b2 b3 b4 b5 b6 b7 b8 b9 b10 =>
      have e1 := ho.metaCmd.trans ho'.metaCmd.symm
      have e2 := hb ho.cas ho'.cas
      have e3 := ho.casValue.trans ho'.casValue.symm
      have e4 := ho.flag.trans ho'.flag.symm
      have e5 := hb ho.invalidate ho'.invalidate
      have e6 := hb ho.key ho'.key
      have e7 := ho.opaq.trans ho'.opaq.symm
      have e8 := hb ho.noReply ho'.noReply
      have e9 := ho.size.trans ho'.size.symm
      have e10 := ho.expiration.trans ho'.expiration.symm
      dsimp only at e1 e2 e3 e4 e5 e6 e7 e8 e9 e10
      subst e1 e2 e3 e4 e5 e6 e7 e8 e9 e10
      rfl

/-! ### The switch -/

theorem pure_ok {α : Type} {a b : α} {i r : Bytes} : (pure a : Rd α) i = (.ok b, r) ↔ b = a ∧ r = i := by
  show (Res.ok a, i) = _ ↔ _
  simp only [Prod.mk.injEq, Res.ok.injEq]
  exact ⟨fun ⟨h1, h2⟩ => ⟨h1.symm, h2.symm⟩, fun ⟨h1, h2⟩ => ⟨h1.symm, h2.symm⟩⟩

theorem fail_ok {α : Type} {e : Err} {b : α} {i r : Bytes} : ¬ (Rd.fail e : Rd α) i = (.ok b, r) := by
  show ¬ ((Res.err e : Res α), i) = _
  simp

theorem data_ok {n : Int} {f : Bytes → Request} {i rest : Bytes} {req : Request} (hn : n < 4294967296) :
    (readN (n + 2) >>= fun buf => Rd.lift (sliceTo buf n) >>= fun v => pure (f v)) i = (.ok req, rest)
      ↔ ∃ value a b, i = value ++ [a, b] ++ rest ∧ (value.length : Int) = n ∧ req = f value := by
  have hm : maxAlloc = 281474976710656 := by unfold maxAlloc; decide
  rw [n_ok_iff]
  constructor
  · rintro ⟨v, r', rfl, hv, _, h⟩
    obtain ⟨value, hs, h2⟩ := lift_ok_iff.1 h
    obtain ⟨t, rfl, ht⟩ := sliceTo_ok.1 hs
    have ht2 : t.length = 2 := by simp at hv; omega
    obtain ⟨rfl, rfl⟩ := pure_ok.1 h2
    match t, ht2 with
    | [a, b], _ => exact ⟨value, a, b, rfl, ht, rfl⟩
  · rintro ⟨value, a, b, rfl, hv, rfl⟩
    refine ⟨value ++ [a, b], rest, rfl, by simp; omega, by rw [hm]; simp; omega, ?_⟩
    exact lift_ok_iff.2 ⟨value, sliceTo_ok.2 ⟨[a, b], rfl, hv⟩, rfl⟩

/-- Anything read as a data block. -/
def TextRest (words : List Bytes) (i : Bytes) (req : Request) (rest : Bytes) : Prop :=
  ∃ data, i = data ++ rest ∧ TextRequest words data req

theorem readStore_fwd {cmd : Bytes} {op : UInt8} {args : List Bytes} {i rest : Bytes} {req : Request}
    (hc : (cmd, op) ∈ [(b!"set", opSet), (b!"add", opAdd), (b!"replace", opReplace)])
    (h : readStore op (cmd :: args) i = (.ok req, rest)) : TextRest (cmd :: args) i req rest := by
  match args with
  | [key, sf, se, sn] =>
    rw [readStore_five] at h
    obtain ⟨f, hf, h⟩ := lift_ok_iff.1 h
    obtain ⟨e, he, h⟩ := lift_ok_iff.1 h
    obtain ⟨n, hn, h⟩ := lift_ok_iff.1 h
    have hn' := (parseInt_iff (by omega)).1 (numRes_ok.1 hn)
    obtain ⟨value, a, b, rfl, hv, rfl⟩ := (data_ok (by have := parseInt_range (numRes_ok.1 hn); omega)).1 h
    refine ⟨value ++ [a, b], rfl, ?_⟩
    have := TextRequest.store (key := key) (value := value) (a := a) (b := b) hc
      ((parseInt_iff (by omega)).1 (numRes_ok.1 hf))
      ((parseInt_iff (by omega)).1 (numRes_ok.1 he)) (by rw [hv]; exact hn')
    exact this
  | [] => exact absurd h fail_ok
  | [_] => exact absurd h fail_ok
  | [_, _] => exact absurd h fail_ok
  | [_, _, _] => exact absurd h fail_ok
  | _ :: _ :: _ :: _ :: _ :: _ => exact absurd h fail_ok

theorem readStore_bwd {cmd key sf se sn value : Bytes} {op a b : UInt8} {f e : Int} {rest : Bytes}
    (hf : Num 32 sf f) (he : Num 32 se e) (hn : Num 32 sn value.length) :
    readStore op [cmd, key, sf, se, sn] (value ++ [a, b] ++ rest)
      = (.ok { opcode := op, key := key, flags := some (putBE 4 (f % 2 ^ 32).toNat), value := value,
               setOpt := some { expiration := e } }, rest) := by
  rw [readStore_five]
  refine lift_ok_iff.2 ⟨f, numRes_ok.2 ((parseInt_iff (by omega)).2 hf), ?_⟩
  refine lift_ok_iff.2 ⟨e, numRes_ok.2 ((parseInt_iff (by omega)).2 he), ?_⟩
  refine lift_ok_iff.2 ⟨value.length, numRes_ok.2 ((parseInt_iff (by omega)).2 hn), ?_⟩
  refine (data_ok ?_).2 ⟨value, a, b, rfl, rfl, rfl⟩
  have h2 : (value.length : Int) < ((2 ^ (32 - 1) : Nat) : Int) := hn.2.2
  have e31 : 2 ^ (32 - 1) = 2147483648 := by decide
  rw [e31] at h2
  omega

theorem readDelta_fwd {cmd : Bytes} {op : UInt8} {args : List Bytes} {i rest : Bytes} {req : Request}
    (hc : (cmd, op) ∈ [(b!"incr", opIncrement), (b!"decr", opDecrement), (b!"touch", opTouch)])
    (h : readDelta op (cmd :: args) i = (.ok req, rest)) : TextRest (cmd :: args) i req rest := by
  match args with
  | [key, sd] =>
    obtain ⟨d, hd, h⟩ := lift_ok_iff.1 h
    obtain ⟨rfl, rfl⟩ := pure_ok.1 h
    exact ⟨[], rfl, .arith hc ((parseInt_iff (by omega)).1 (numRes_ok.1 hd))⟩
  | [] => exact absurd h fail_ok
  | [_] => exact absurd h fail_ok
  | _ :: _ :: _ :: _ => exact absurd h fail_ok

theorem readDelta_bwd {cmd key sd : Bytes} {op : UInt8} {d : Int} {rest : Bytes} (hd : Num 32 sd d) :
    readDelta op [cmd, key, sd] rest = (.ok { opcode := op, key := key, delta := d }, rest) :=
  lift_ok_iff.2 ⟨d, numRes_ok.2 ((parseInt_iff (by omega)).2 hd), rfl⟩

theorem readMs_fwd {args : List Bytes} {i rest : Bytes} {req : Request}
    (h : readMs (b!"ms" :: args) i = (.ok req, rest)) : TextRest (b!"ms" :: args) i req rest := by
  match args with
  | key :: sn :: ws =>
    rw [readMs_cons] at h
    obtain ⟨n, hn, h⟩ := lift_ok_iff.1 h
    obtain ⟨o, ho, h⟩ := lift_ok_iff.1 h
    have hn' := parseUint_iff.1 (numRes_ok.1 hn)
    obtain ⟨ts, hts, rfl⟩ := msWords_iff.1 ho
    have hlt : (ts.foldl msStep { metaCmd := true, size := (n : Int) }).size < 4294967296 := by
      rw [(msTokens_of_ok ho).2]
      refine msLen_lt ?_
      have := parseUint_range (numRes_ok.1 hn)
      show (n : Int) < _
      omega
    obtain ⟨value, a, b, rfl, hv, rfl⟩ := (data_ok hlt).1 h
    exact ⟨value ++ [a, b], rfl, .ms hn' hts (msOptions n ts) hv.symm⟩
  | [] => exact absurd h fail_ok
  | [_] => exact absurd h fail_ok

theorem readMs_bwd {key sn value : Bytes} {a b : UInt8} {n : Nat} {ws : List Bytes} {ts : List MsTok} {o : SetOpt}
    {rest : Bytes} (hn : UNum 32 sn n) (hw : MsWords ws ts) (ho : MsOptions n ts o) (hs : o.size = value.length) :
    readMs (b!"ms" :: key :: sn :: ws) (value ++ [a, b] ++ rest)
      = (.ok { opcode := opSet, key := key, value := value, setOpt := some o }, rest) := by
  have hm : msTokens { metaCmd := true, size := (n : Int) } ws = .ok o := by
    rw [msOptions_unique ho (msOptions n ts)]
    exact msWords_iff.2 ⟨ts, hw, rfl⟩
  rw [readMs_cons]
  refine lift_ok_iff.2 ⟨n, numRes_ok.2 (parseUint_iff.2 hn), ?_⟩
  refine lift_ok_iff.2 ⟨o, hm, ?_⟩
  refine (data_ok ?_).2 ⟨value, a, b, rfl, hs.symm, rfl⟩
  rw [(msTokens_of_ok hm).2]
  refine msLen_lt ?_
  have := parseUint_range (parseUint_iff.2 hn)
  show (n : Int) < _
  omega

theorem asciiRequest_iff {ws : List Bytes} {i rest : Bytes} {req : Request} :
    asciiRequest ws i = (.ok req, rest) ↔ TextRest ws i req rest := by
  constructor
  · intro h
    cases ws with
    | nil => exact absurd h fail_ok
    | cons cmd args =>
      unfold asciiRequest at h
      dsimp only at h
      by_cases h0 : cmd = b!"get"
      · rw [if_pos h0] at h
        subst h0
        match args with
        | [key] => obtain ⟨rfl, rfl⟩ := pure_ok.1 h; exact ⟨[], rfl, .get⟩
        | [] => exact absurd h fail_ok
        | _ :: _ :: _ => exact absurd h fail_ok
      rw [if_neg h0] at h
      by_cases h1 : cmd = b!"gets"
      · rw [if_pos h1] at h
        subst h1
        obtain ⟨rfl, rfl⟩ := pure_ok.1 h; exact ⟨[], rfl, .gets⟩
      rw [if_neg h1] at h
      by_cases h2 : cmd = b!"set"
      · rw [if_pos h2] at h
        subst h2
        exact readStore_fwd (by simp) h
      rw [if_neg h2] at h
      by_cases h3 : cmd = b!"add"
      · rw [if_pos h3] at h
        subst h3
        exact readStore_fwd (by simp) h
      rw [if_neg h3] at h
      by_cases h4 : cmd = b!"replace"
      · rw [if_pos h4] at h
        subst h4
        exact readStore_fwd (by simp) h
      rw [if_neg h4] at h
      by_cases h5 : cmd = b!"delete"
      · rw [if_pos h5] at h
        subst h5
        match args with
        | [key] => obtain ⟨rfl, rfl⟩ := pure_ok.1 h; exact ⟨[], rfl, .delete⟩
        | [] => exact absurd h fail_ok
        | _ :: _ :: _ => exact absurd h fail_ok
      rw [if_neg h5] at h
      by_cases h6 : cmd = b!"md"
      · rw [if_pos h6] at h
        subst h6
        match args with
        | [key] => obtain ⟨rfl, rfl⟩ := pure_ok.1 h; exact ⟨[], rfl, .md⟩
        | [] => exact absurd h fail_ok
        | _ :: _ :: _ => exact absurd h fail_ok
      rw [if_neg h6] at h
      by_cases h7 : cmd = b!"incr"
      · rw [if_pos h7] at h
        subst h7
        exact readDelta_fwd (by simp) h
      rw [if_neg h7] at h
      by_cases h8 : cmd = b!"decr"
      · rw [if_pos h8] at h
        subst h8
        exact readDelta_fwd (by simp) h
      rw [if_neg h8] at h
      by_cases h9 : cmd = b!"touch"
      · rw [if_pos h9] at h
        subst h9
        exact readDelta_fwd (by simp) h
      rw [if_neg h9] at h
      by_cases h10 : cmd = b!"mg"
      · rw [if_pos h10] at h
        subst h10
        match args with
        | key :: word :: more => obtain ⟨rfl, rfl⟩ := pure_ok.1 h; exact ⟨[], rfl, .mg (mgOptions word)⟩
        | [] => exact absurd h fail_ok
        | [_] => exact absurd h fail_ok
      rw [if_neg h10] at h
      by_cases h11 : cmd = b!"ms"
      · rw [if_pos h11] at h
        subst h11
        exact readMs_fwd h
      rw [if_neg h11] at h
      by_cases h12 : cmd = b!"flush_all"
      · rw [if_pos h12] at h
        subst h12
        obtain ⟨rfl, rfl⟩ := pure_ok.1 h; exact ⟨[], rfl, .flush⟩
      rw [if_neg h12] at h
      by_cases h13 : cmd = b!"version"
      · rw [if_pos h13] at h
        subst h13
        obtain ⟨rfl, rfl⟩ := pure_ok.1 h; exact ⟨[], rfl, .version⟩
      rw [if_neg h13] at h
      exact absurd h fail_ok
  · rintro ⟨data, rfl, h⟩
    cases h with
    | get => rfl
    | gets => rfl
    | store hc hf he hn =>
      simp only [List.mem_cons, Prod.mk.injEq, List.not_mem_nil, or_false] at hc
      rcases hc with ⟨rfl, rfl⟩ | ⟨rfl, rfl⟩ | ⟨rfl, rfl⟩
      · exact readStore_bwd (cmd := b!"set") hf he hn
      · exact readStore_bwd (cmd := b!"add") hf he hn
      · exact readStore_bwd (cmd := b!"replace") hf he hn
    | delete => rfl
    | md => rfl
    | arith hc hd =>
      simp only [List.mem_cons, Prod.mk.injEq, List.not_mem_nil, or_false] at hc
      rcases hc with ⟨rfl, rfl⟩ | ⟨rfl, rfl⟩ | ⟨rfl, rfl⟩
      · exact readDelta_bwd (cmd := b!"incr") hd
      · exact readDelta_bwd (cmd := b!"decr") hd
      · exact readDelta_bwd (cmd := b!"touch") hd
    | @mg key word more o ho =>
      rw [mgOptions_unique ho (mgOptions word)]
      rfl
    | ms hn hw ho hs => exact readMs_bwd hn hw ho hs
    | flush => rfl
    | version => rfl

theorem readAscii_iff {i rest : Bytes} {req : Request} :
    readAscii i = (.ok req, rest) ↔ ∃ m, i = m ++ rest ∧ IsText m req := by
  unfold readAscii IsText
  constructor
  · intro h
    rw [Rd.bind_apply] at h
    cases hb : readBytes i with
    | mk x j =>
      rw [hb] at h
      cases x with
      | ok l =>
        obtain ⟨rfl, hl⟩ := readBytes_iff.1 hb
        obtain ⟨data, rfl, ht⟩ := asciiRequest_iff.1 h
        exact ⟨l ++ data, by simp, l, _, data, rfl, textLine_iff.2 ⟨hl, rfl⟩, ht⟩
      | err e => simp at h
      | panic => simp at h
  · rintro ⟨m, rfl, l, ws, data, rfl, hl, ht⟩
    obtain ⟨hl', rfl⟩ := textLine_iff.1 hl
    rw [Rd.bind_of_ok (readBytes_iff.2 ⟨List.append_assoc l data rest, hl'⟩)]
    exact asciiRequest_iff.2 ⟨data, rfl, ht⟩

end Props
end Verif
