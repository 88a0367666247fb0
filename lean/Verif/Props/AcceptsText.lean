import Verif.Spec.Accepts
import Verif.Lemmas.Scan
import Verif.Props.AnyText
import Verif.Props.ClientPanics
/-!
C70: the replies to Get and GetMulti the text client accepts: exactly those of `Spec/Accepts.lean`.
-/

namespace Verif
namespace Props
open Spec Scan

/-! ### Scanning -/

theorem takeRun_iff {p : Nat → Bool} {i a b : List Nat} : takeRun p i = (a, b)
    ↔ i = a ++ b ∧ (∀ r ∈ a, p r = true) ∧ ∀ r, b.head? = some r → p r = false := by
  induction i generalizing a b with
  | nil =>
    simp only [takeRun, Prod.mk.injEq]
    constructor
    · rintro ⟨rfl, rfl⟩; simp
    · rintro ⟨h, _⟩
      have := List.append_eq_nil_iff.1 h.symm
      exact ⟨this.1.symm, this.2.symm⟩
  | cons r rs ih =>
    simp only [takeRun]
    split
    · rename_i hp
      constructor
      · intro h
        simp only [Prod.mk.injEq] at h
        obtain ⟨h1, h2⟩ := h
        obtain ⟨e1, e2, e3⟩ := ih.1 (Prod.ext rfl h2 : takeRun p rs = ((takeRun p rs).1, b))
        subst h1
        refine ⟨by rw [List.cons_append, ← e1], fun x hx => ?_, e3⟩
        rcases List.mem_cons.1 hx with rfl | hx
        · exact hp
        · exact e2 x hx
      · rintro ⟨h1, h2, h3⟩
        cases a with
        | nil =>
          rw [List.nil_append] at h1
          have := h3 r (by rw [← h1]; rfl)
          rw [hp] at this; cases this
        | cons x a =>
          simp only [List.cons_append, List.cons.injEq] at h1
          obtain ⟨rfl, h1⟩ := h1
          have := ih.2 ⟨h1, fun y hy => h2 y (List.mem_cons_of_mem _ hy), h3⟩
          rw [this]
    · rename_i hp
      simp only [Prod.mk.injEq]
      constructor
      · rintro ⟨rfl, rfl⟩
        exact ⟨rfl, by simp, by intro x hx; simp at hx; subst hx; simpa using hp⟩
      · rintro ⟨h1, h2, h3⟩
        cases a with
        | nil => exact ⟨rfl, h1⟩
        | cons x a =>
          simp only [List.cons_append, List.cons.injEq] at h1
          have := h2 x (by simp)
          rw [← h1.1] at this
          exact absurd this hp

/-- After white space of the format comes a verb that skips white space: at least one blank, then a character. -/
theorem blank_iff {i : List Nat} {c : Nat} {j : List Nat} : (fmtSpace i).bind skipSpace = some (c :: j)
    ↔ isSpace c = false ∧ ∃ s, Blank s ∧ i = s ++ c :: j := by
  have drop : ∀ i : List Nat, skipSpace (dropSp i) = some (c :: j)
      ↔ isSpace c = false ∧ ∃ s, (∀ r ∈ s, isSpace r = true ∧ r ≠ 10) ∧ i = s ++ c :: j := by
    intro i
    induction i with
    | nil => simp [dropSp, skipSpace]
    | cons r rs ih =>
      simp only [dropSp]
      split
      · rename_i h
        simp only [Bool.and_eq_true, bne_iff_ne, ne_eq] at h
        rw [ih]
        constructor
        · rintro ⟨h1, s, h2, rfl⟩
          exact ⟨h1, r :: s, by simpa using ⟨h, h2⟩, rfl⟩
        · rintro ⟨h1, s, h2, h3⟩
          refine ⟨h1, ?_⟩
          cases s with
          | nil =>
            simp only [List.nil_append, List.cons.injEq] at h3
            rw [← h3.1, h.1] at h1; cases h1
          | cons x s =>
            simp only [List.cons_append, List.cons.injEq] at h3
            exact ⟨s, fun y hy => h2 y (List.mem_cons_of_mem _ hy), h3.2⟩
      · rename_i h
        simp only [skipSpace]
        constructor
        · intro hs
          split at hs
          · cases hs
          · rename_i h10
            have hsp : isSpace r = false := by
              cases hr : isSpace r with
              | false => rfl
              | true => exact absurd (by simp [hr, h10]) h
            rw [hsp] at hs
            simp only [Bool.false_eq_true, if_false, Option.some.injEq, List.cons.injEq] at hs
            obtain ⟨rfl, rfl⟩ := hs
            exact ⟨hsp, [], by simp, rfl⟩
        · rintro ⟨h1, s, h2, h3⟩
          cases s with
          | nil =>
            simp only [List.nil_append, List.cons.injEq] at h3
            obtain ⟨rfl, rfl⟩ := h3
            have : r ≠ 10 := by rintro rfl; simp [isSpace] at h1
            rw [if_neg this, h1]
            rfl
          | cons x s =>
            simp only [List.cons_append, List.cons.injEq] at h3
            have := h2 x (by simp)
            rw [← h3.1] at this
            exact absurd (by simp [this.1, this.2]) h
  cases i with
  | nil =>
    simp only [fmtSpace, Option.bind_some, skipSpace, Option.some.injEq, reduceCtorEq, false_iff]
    rintro ⟨_, s, _, h⟩
    simp at h
  | cons r rs =>
    simp only [fmtSpace]
    by_cases hsp : isSpace r = true
    · by_cases h10 : r = 10
      · subst h10
        simp only [hsp, Bool.not_true, Bool.false_eq_true, if_false, if_true, Option.bind_none, reduceCtorEq, false_iff]
        rintro ⟨_, s, ⟨h1, h2⟩, h3⟩
        cases s with
        | nil => exact h1 rfl
        | cons x s =>
          simp only [List.cons_append, List.cons.injEq] at h3
          exact (h2 x (by simp)).2 h3.1.symm
      · simp only [hsp, Bool.not_true, Bool.false_eq_true, if_false, h10, Option.bind_some]
        rw [drop]
        constructor
        · rintro ⟨h1, s, h2, rfl⟩
          exact ⟨h1, r :: s, ⟨by simp, by simpa using ⟨⟨hsp, h10⟩, h2⟩⟩, rfl⟩
        · rintro ⟨h1, s, ⟨hne, h2⟩, h3⟩
          refine ⟨h1, ?_⟩
          cases s with
          | nil => exact absurd rfl hne
          | cons x s =>
            simp only [List.cons_append, List.cons.injEq] at h3
            exact ⟨s, fun y hy => h2 y (List.mem_cons_of_mem _ hy), h3.2⟩
    · have hsp' : isSpace r = false := by simpa using hsp
      simp only [hsp', Bool.not_false, if_true, Option.bind_none, reduceCtorEq, false_iff]
      rintro ⟨_, s, ⟨h1, h2⟩, h3⟩
      cases s with
      | nil => exact h1 rfl
      | cons x s =>
        simp only [List.cons_append, List.cons.injEq] at h3
        have := (h2 x (by simp)).1
        rw [← h3.1, hsp'] at this; cases this

/-- A verb after white space. -/
theorem verb_iff {α : Type} {scan core : List Nat → Option α} (h0 : ∀ j, skipSpace j = none → scan j = none)
    (h1 : ∀ j, skipSpace j = some [] → scan j = none) (h2 : ∀ j c k, skipSpace j = some (c :: k) → scan j = core (c :: k))
    {i : List Nat} {v : α} : (fmtSpace i).bind scan = some v
      ↔ ∃ s c k, Blank s ∧ isSpace c = false ∧ i = s ++ c :: k ∧ core (c :: k) = some v := by
  have hb := @blank_iff i
  cases hf : fmtSpace i with
  | none =>
    rw [hf] at hb
    simp only [Option.bind_none, reduceCtorEq, false_iff]
    rintro ⟨s, c, k, h1, h2, h3, _⟩
    have := (@hb c k).2 ⟨h2, s, h1, h3⟩
    cases this
  | some j =>
    rw [hf] at hb
    simp only [Option.bind_some] at hb ⊢
    cases hs : skipSpace j with
    | none =>
      rw [hs] at hb
      rw [h0 j hs]
      simp only [reduceCtorEq, false_iff]
      rintro ⟨s, c, k, h1, h2, h3, _⟩
      have := (@hb c k).2 ⟨h2, s, h1, h3⟩
      cases this
    | some q =>
      rw [hs] at hb
      cases q with
      | nil =>
        rw [h1 j hs]
        simp only [reduceCtorEq, false_iff]
        rintro ⟨s, c, k, h1, h2, h3, _⟩
        have := (@hb c k).2 ⟨h2, s, h1, h3⟩
        cases this
      | cons c k =>
        rw [h2 j c k hs]
        constructor
        · intro h
          obtain ⟨h2, s, h1, h3⟩ := (@hb c k).1 rfl
          exact ⟨s, c, k, h1, h2, h3, h⟩
        · rintro ⟨s, c', k', h1, h2, h3, h4⟩
          have := (@hb c' k').2 ⟨h2, s, h1, h3⟩
          simp only [Option.some.injEq, List.cons.injEq] at this
          obtain ⟨rfl, rfl⟩ := this
          exact h4

theorem isDec_iff {r : Nat} : isDec r = true ↔ 48 ≤ r ∧ r ≤ 57 := by
  simp [isDec]

theorem noDigit_iff {b : List Nat} : (∀ r, b.head? = some r → isDec r = false) ↔ NoDigit b := by
  unfold NoDigit
  refine forall_congr' fun r => imp_congr_right fun _ => ?_
  rw [← isDec_iff]; simp

/-- Digit characters are digit bytes. -/
theorem digits_chars {a : List Nat} (h : ∀ r ∈ a, isDec r = true) : a = chars (a.map UInt8.ofNat) := by
  unfold chars
  rw [List.map_map]
  conv => lhs; rw [← List.map_id a]
  refine List.map_congr_left fun r hr => ?_
  have := isDec_iff.1 (h r hr)
  simp only [id, Function.comp, UInt8.toNat_ofNat']
  omega

theorem chars_ofNat (t : Bytes) : (chars t).map UInt8.ofNat = t := by
  unfold chars
  exact map_ofNat_toNat t

theorem isSpace_digit {c : Nat} (h : 48 ≤ c ∧ c ≤ 57) : isSpace c = false := by
  simp [isSpace]; omega

theorem str_iff {i : List Nat} {key : Bytes} {r : List Nat} : (fmtSpace i).bind scanStr = some (key, r)
    ↔ ∃ s k, Blank s ∧ Word k ∧ i = s ++ (k ++ r) ∧ key = k.flatMap encodeRune ∧ ∀ x, r.head? = some x → isSpace x = true := by
  refine (verb_iff (core := fun j => some (((takeRun (fun r => !isSpace r) j).1.flatMap encodeRune,
    (takeRun (fun r => !isSpace r) j).2))) (fun j h => by unfold scanStr; rw [h]) (fun j h => by unfold scanStr; rw [h])
    (fun j c k h => by unfold scanStr; rw [h])).trans ?_
  constructor
  · rintro ⟨s, c, k, h1, h2, rfl, h4⟩
    generalize hq : takeRun (fun r => !isSpace r) (c :: k) = q at h4
    obtain ⟨a, b⟩ := q
    obtain ⟨e1, e2, e3⟩ := takeRun_iff.1 hq
    simp only [Option.some.injEq, Prod.mk.injEq] at h4
    obtain ⟨rfl, rfl⟩ := h4
    refine ⟨s, a, h1, ⟨?_, fun x hx => by simpa using e2 x hx⟩, by rw [e1], rfl, fun x hx => by simpa using e3 x hx⟩
    rintro rfl
    have := e3 c (by rw [List.nil_append] at e1; rw [← e1]; rfl)
    simp [h2] at this
  · rintro ⟨s, k, h1, ⟨h2, h3⟩, rfl, rfl, h4⟩
    cases k with
    | nil => exact absurd rfl h2
    | cons c k =>
      refine ⟨s, c, k ++ r, h1, h3 c (by simp), rfl, ?_⟩
      have : takeRun (fun r => !isSpace r) (c :: k ++ r) = (c :: k, r) :=
        takeRun_iff.2 ⟨rfl, fun x hx => by simp [h3 x hx], fun x hx => by simp [h4 x hx]⟩
      rw [show c :: (k ++ r) = c :: k ++ r from rfl, this]

theorem uint_iff {bits : Nat} (hb : bits ≤ 64) {i : List Nat} {n : Nat} {r : List Nat} : (fmtSpace i).bind (scanUint bits) = some (n, r)
    ↔ ∃ s t, Blank s ∧ UNum bits t n ∧ i = s ++ (chars t ++ r) ∧ NoDigit r := by
  have hpow : 2 ^ bits ≤ 2 ^ 64 := Nat.pow_le_pow_right (by omega) hb
  refine (verb_iff (core := fun j => if (takeRun isDec j).1 = [] then none
    else match parseUint ((takeRun isDec j).1.map UInt8.ofNat) 64 with
      | none => none
      | some n => if n < 2 ^ bits then some (n, (takeRun isDec j).2) else none) (fun j h => by unfold scanUint; rw [h]) (fun j h => by unfold scanUint; rw [h])
    (fun j c k h => by unfold scanUint; rw [h]; rfl)).trans ?_
  constructor
  · rintro ⟨s, c, k, h1, h2, rfl, h4⟩
    generalize hq : takeRun isDec (c :: k) = q at h4
    obtain ⟨a, b⟩ := q
    obtain ⟨e1, e2, e3⟩ := takeRun_iff.1 hq
    split at h4
    · cases h4
    · simp only at h4
      split at h4
      · cases h4
      · rename_i m hm
        split at h4
        · rename_i hlt
          simp only [Option.some.injEq, Prod.mk.injEq] at h4
          obtain ⟨rfl, rfl⟩ := h4
          exact ⟨s, a.map UInt8.ofNat, h1, ⟨(parseUint_iff.1 hm).1, hlt⟩, by rw [← digits_chars e2, e1], noDigit_iff.1 e3⟩
        · cases h4
  · rintro ⟨s, t, h1, h2, rfl, h4⟩
    obtain ⟨⟨hne, hd, hv⟩, hlt⟩ := h2
    have htake : takeRun isDec (chars t ++ r) = (chars t, r) := takeRun_iff.2 ⟨rfl, by
      intro x hx
      obtain ⟨c, hc, rfl⟩ := List.mem_map.1 hx
      exact isDec_iff.2 (hd c hc), noDigit_iff.2 h4⟩
    cases t with
    | nil => exact absurd rfl hne
    | cons c t =>
      refine ⟨s, c.toNat, chars t ++ r, h1, isSpace_digit (hd c (by simp)), rfl, ?_⟩
      rw [show c.toNat :: (chars t ++ r) = chars (c :: t) ++ r from rfl, htake]
      simp only [chars_ofNat]
      rw [if_neg (by simp [chars]), parseUint_iff.2 ⟨⟨hne, hd, hv⟩, Nat.lt_of_lt_of_le hlt hpow⟩]
      simp only [hlt, if_true]

theorem int_iff {i : List Nat} {n : Int} {r : List Nat} : (fmtSpace i).bind scanInt = some (n, r)
    ↔ ∃ s t, Blank s ∧ Num 64 t n ∧ i = s ++ (chars t ++ r) ∧ NoDigit r := by
  refine (verb_iff (core := fun j => match j with
    | [] => none
    | x :: j =>
      let sgn := if x = 43 ∨ x = 45 then [x] else []
      let k := if x = 43 ∨ x = 45 then j else x :: j
      let q := takeRun isDec k
      if q.1 = [] then none
      else match parseInt ((sgn ++ q.1).map UInt8.ofNat) 64 with
        | none => none
        | some n => some (n, q.2)) (fun j h => by unfold scanInt; rw [h]) (fun j h => by unfold scanInt; rw [h])
    (fun j c k h => by unfold scanInt; rw [h]; rfl)).trans ?_
  constructor
  · rintro ⟨s, c, k, h1, h2, rfl, h4⟩
    simp only at h4
    by_cases hs : c = 43 ∨ c = 45
    · simp only [hs, if_true] at h4
      generalize hq : takeRun isDec k = q at h4
      obtain ⟨a, b⟩ := q
      obtain ⟨rfl, e2, e3⟩ := takeRun_iff.1 hq
      split at h4
      · cases h4
      · split at h4
        · cases h4
        · rename_i m hm
          simp only [Option.some.injEq, Prod.mk.injEq] at h4
          obtain ⟨rfl, rfl⟩ := h4
          refine ⟨s, _, h1, (parseInt_iff (by omega)).1 hm, ?_, noDigit_iff.1 e3⟩
          rw [List.map_append, chars, List.map_append]
          have := digits_chars e2
          unfold chars at this
          rw [← this]
          rcases hs with rfl | rfl <;> rfl
    · simp only [hs, if_false, List.nil_append] at h4
      generalize hq : takeRun isDec (c :: k) = q at h4
      obtain ⟨a, b⟩ := q
      obtain ⟨e1, e2, e3⟩ := takeRun_iff.1 hq
      split at h4
      · cases h4
      · split at h4
        · cases h4
        · rename_i m hm
          simp only [Option.some.injEq, Prod.mk.injEq] at h4
          obtain ⟨rfl, rfl⟩ := h4
          exact ⟨s, _, h1, (parseInt_iff (by omega)).1 hm, by rw [← digits_chars e2, e1], noDigit_iff.1 e3⟩
  · rintro ⟨s, t, h1, h2, rfl, h4⟩
    have hp := (parseInt_iff (b := 64) (by omega)).2 h2
    have htake : ∀ {u : Bytes} {m : Nat}, Digits u m → takeRun isDec (chars u ++ r) = (chars u, r) := by
      intro u m hd
      refine takeRun_iff.2 ⟨rfl, ?_, noDigit_iff.2 h4⟩
      intro x hx
      obtain ⟨c, hc, rfl⟩ := List.mem_map.1 hx
      exact isDec_iff.2 (hd.2.1 c hc)
    have hne : ∀ {u : Bytes} {m : Nat}, Digits u m → chars u ≠ [] := by
      intro u m hd; simpa [chars] using hd.1
    cases h2.1 with
    | @plain _ m hd =>
      cases t with
      | nil => exact absurd rfl hd.1
      | cons c t =>
        have hc := hd.2.1 c (by simp)
        refine ⟨s, c.toNat, chars t ++ r, h1, isSpace_digit hc, rfl, ?_⟩
        have hs : ¬ (c.toNat = 43 ∨ c.toNat = 45) := by omega
        simp only [hs, if_false, List.nil_append]
        rw [show c.toNat :: (chars t ++ r) = chars (c :: t) ++ r from rfl, htake hd]
        simp only [hne hd, if_false, chars_ofNat, hp]
    | @plus u m hd =>
      refine ⟨s, 43, chars u ++ r, h1, rfl, rfl, ?_⟩
      simp only [true_or, if_true]
      rw [htake hd]
      simp only [hne hd, if_false, List.map_append, chars_ofNat]
      rw [show [43].map UInt8.ofNat ++ u = 43 :: u from rfl, hp]
    | @minus u m hd =>
      refine ⟨s, 45, chars u ++ r, h1, rfl, rfl, ?_⟩
      simp only [or_true, if_true]
      rw [htake hd]
      simp only [hne hd, if_false, List.map_append, chars_ofNat]
      rw [show [45].map UInt8.ofNat ++ u = 45 :: u from rfl, hp]

theorem blank_head {s : List Nat} (h : Blank s) (t : List Nat) : ∃ c, (s ++ t).head? = some c ∧ isSpace c = true := by
  cases s with
  | nil => exact absurd rfl h.1
  | cons c s => exact ⟨c, rfl, (h.2 c (by simp)).1⟩

theorem blank_noDigit {s : List Nat} (h : Blank s) (t : List Nat) : NoDigit (s ++ t) := by
  obtain ⟨c, hc, hs⟩ := blank_head h t
  intro r hr hd
  rw [hc] at hr
  cases hr
  rw [isSpace_digit hd] at hs; cases hs

/-- The scan of the header line. -/
theorem scanValue_iff {l key : Bytes} {flags : Nat} {size : Int} {cas : Nat} :
    b!"VALUE" <+: l ∧ scanValue (l.count 32 != 3) l = some (key, flags, size, cas) ↔ ValueHead l key flags size cas := by
  have hlit : ∀ t, fmtLit [86, 65, 76, 85, 69] (decodeRunes (b!"VALUE" ++ t)) = some (decodeRunes t) := by
    intro t
    rw [decodeRunes_asciis b!"VALUE" (by decide)]
    rfl
  have hscan : ∀ t w, scanValue w (b!"VALUE" ++ t) = ((fmtSpace (decodeRunes t)).bind scanStr).bind fun a =>
      ((fmtSpace a.2).bind (scanUint 32)).bind fun b => ((fmtSpace b.2).bind scanInt).bind fun c =>
      if w then ((fmtSpace c.2).bind (scanUint 64)).bind fun d => some (a.1, b.1, c.1, d.1) else some (a.1, b.1, c.1, 0) := by
    intro t w
    unfold scanValue
    rw [hlit]
    simp only [Option.bind_eq_bind, Option.bind_some, Option.bind_assoc, Option.pure_def]
  unfold ValueHead
  constructor
  · rintro ⟨⟨t, rfl⟩, h⟩
    rw [hscan] at h
    simp only [Option.bind_eq_some_iff] at h
    obtain ⟨⟨k, r1⟩, ha, ⟨f, r2⟩, hb, ⟨z, r3⟩, hc, h⟩ := h
    obtain ⟨s1, kk, a1, a2, a3, a4, a5⟩ := str_iff.1 (Option.bind_eq_some_iff.2 ha)
    obtain ⟨s2, ff, b1, b2, b3, b4⟩ := (uint_iff (by omega)).1 (Option.bind_eq_some_iff.2 hb)
    obtain ⟨s3, zz, c1, c2, c3, c4⟩ := int_iff.1 (Option.bind_eq_some_iff.2 hc)
    simp only at h b3 c3
    refine ⟨t, s1, kk, s2, ff, s3, zz, r3, rfl, by rw [a3, b3, c3], a1, a2, b1, ?_, c1, ?_, ?_, ?_⟩
    all_goals
      split at h
      all_goals try simp only [Option.bind_eq_some_iff, Option.some.injEq, Prod.mk.injEq] at h
    · obtain ⟨⟨_, _⟩, _, _, h2, _, _⟩ := h; rw [← h2]; exact b2
    · obtain ⟨_, h2, _, _⟩ := h; rw [← h2]; exact b2
    · obtain ⟨⟨_, _⟩, _, _, _, h2, _⟩ := h; rw [← h2]; exact c2
    · obtain ⟨_, _, h2, _⟩ := h; rw [← h2]; exact c2
    · obtain ⟨⟨_, _⟩, _, h2, _, _, _⟩ := h; rw [← h2]; exact a4
    · obtain ⟨h2, _, _, _⟩ := h; rw [← h2]; exact a4
    · rename_i hw
      obtain ⟨⟨cc, r4⟩, hd, _, _, _, h2⟩ := h
      obtain ⟨s4, dd, d1, d2, d3, d4⟩ := (uint_iff (by omega)).1 (Option.bind_eq_some_iff.2 hd)
      rw [if_neg (by simpa using hw)]
      exact ⟨s4, dd, r4, d3, d1, by rw [← h2]; exact d2, d4⟩
    · rename_i hw
      rw [if_pos (by simpa using hw)]
      exact ⟨c4, h.2.2.2.symm⟩
  · rintro ⟨t, s1, kk, s2, ff, s3, zz, rest, rfl, hdec, a1, a2, b1, b2, c1, c2, rfl, h⟩
    refine ⟨List.prefix_append _ _, ?_⟩
    rw [hscan]
    simp only [Option.bind_eq_some_iff]
    have hnd : NoDigit rest := by
      split at h
      · exact h.1
      · obtain ⟨s4, c, more, rfl, h4, _⟩ := h
        exact blank_noDigit h4 _
    refine ⟨(kk.flatMap encodeRune, s2 ++ (chars ff ++ (s3 ++ (chars zz ++ rest)))), ?_, (flags, s3 ++ (chars zz ++ rest)), ?_,
      (size, rest), ?_, ?_⟩
    · exact Option.bind_eq_some_iff.1 (str_iff.2 ⟨s1, kk, a1, a2, hdec, rfl, fun x hx => by
        obtain ⟨c, h1, h2⟩ := blank_head b1 (chars ff ++ (s3 ++ (chars zz ++ rest)))
        rw [h1] at hx; cases hx; exact h2⟩)
    · exact Option.bind_eq_some_iff.1 ((uint_iff (by omega)).2 ⟨s2, ff, b1, b2, rfl, blank_noDigit c1 _⟩)
    · exact Option.bind_eq_some_iff.1 (int_iff.2 ⟨s3, zz, c1, c2, rfl, hnd⟩)
    · split at h
      · rename_i hw
        rw [if_neg (by simpa using hw), h.2]
      · rename_i hw
        obtain ⟨s4, c, more, rfl, h4, h5, h6⟩ := h
        rw [if_pos (by simpa using hw), Option.bind_eq_some_iff]
        exact ⟨(cas, more), (uint_iff (by omega)).2 ⟨s4, c, h4, h5, rfl, h6⟩, rfl⟩

/-! ### Get -/

theorem value_prefix {l key : Bytes} {flags : Nat} {size : Int} {cas : Nat} (h : ValueHead l key flags size cas) :
    b!"VALUE" <+: l := (scanValue_iff.2 h).1

/-- **C70**, text Get: it returns an item exactly for these replies: a header line, the value, two bytes (whatever they
are), and `END`. -/
theorem C70_text_get (name k i r : Bytes) (item : Item) : (Text.get name k).rd i = (.ok item, r)
    ↔ ∃ hdr key value pad flags cas, i = hdr ++ value ++ pad ++ b!"END\r\n" ++ r ∧ Line hdr ∧ hdr.length ≤ 4096
        ∧ ValueHead hdr key flags value.length cas ∧ pad.length = 2 ∧ value.length + 2 ≤ maxAlloc
        ∧ item = { key := key, value := value, flags := some (putBE 4 flags), cas := cas, server := name } := by
  rw [text_get_ok]
  constructor
  · rintro ⟨hdr, pad, flags, h1, h2, h3, h4, _, h6, h7, h8, h9, h10, h11⟩
    refine ⟨hdr, item.key, item.value, pad, flags, item.cas, h1, h2, h3,
      scanValue_iff.1 ⟨List.isPrefixOf_iff_prefix.1 h6, h7⟩, h4, h11, ?_⟩
    obtain ⟨a, b, c, d, e, f⟩ := item
    simp only at h8 h9 h10
    subst h8 h9 h10
    rfl
  · rintro ⟨hdr, key, value, pad, flags, cas, h1, h2, h3, h4, h5, h6, rfl⟩
    obtain ⟨h7, h8⟩ := scanValue_iff.2 h4
    refine ⟨hdr, pad, flags, h1, h2, h3, h5, ?_, List.isPrefixOf_iff_prefix.2 h7, h8, rfl, rfl, rfl, h6⟩
    rintro rfl
    simp [Text.msgEnd] at h7

/-- **C70**, text Get: it panics exactly when the size is negative (for -1 one more byte has to come) or too large to
allocate. -/
theorem C70_text_get_panics (name k i : Bytes) : Panics (Text.get name k) i
    ↔ ∃ hdr s key flags size cas, Reply i hdr s ∧ ValueHead hdr key flags size cas ∧ BadSize size s := by
  rw [C51_text_get]
  constructor
  · rintro ⟨hdr, s, key, flags, size, cas, h1, h2, h3, h4⟩
    exact ⟨hdr, s, key, flags, size, cas, h1, scanValue_iff.1 ⟨h2, h3⟩, h4⟩
  · rintro ⟨hdr, s, key, flags, size, cas, h1, h2, h4⟩
    obtain ⟨h3, h5⟩ := scanValue_iff.2 h2
    exact ⟨hdr, s, key, flags, size, cas, h1, h3, h5, h4⟩

/-! ### GetMulti -/

theorem multiHead_iff {l : Bytes} {q : Bytes × Bytes × Int × Nat} : blockHead l = .ok q
    ↔ ∃ flags, MultiHead l q.1 flags q.2.2.1 ∧ q.2.1 = putBE 4 (toUnsigned 32 flags) ∧ makeLen (q.2.2.1 + 2) = .ok q.2.2.2 := by
  unfold blockHead
  constructor
  · intro h
    split at h
    · simp at h
    · rename_i hv
      simp only [bind_ok_iff, index_ok, numRes_ok] at h
      obtain ⟨s2, h2, f, hf, s3, h3, sz, hsz, size, hsize, k, hk, s1, h1, h⟩ := h
      simp only [Res.pure_eq, Res.ok.injEq] at h
      subst h
      refine ⟨f, ?_, rfl, hk⟩
      have hv' : (splitSp l).head? = some b!"VALUE" := Decidable.not_not.1 hv
      match hs : splitSp l with
      | [] => rw [hs] at hv'; simp at hv'
      | [a] => rw [hs] at h1; simp at h1
      | [a, b] => rw [hs] at h2; simp at h2
      | [a, b, c] => rw [hs] at h3; simp at h3
      | a :: b :: c :: d :: more =>
        rw [hs] at h1 h2 h3 hv' hsz
        simp only [List.head?_cons, Option.some.injEq] at hv'
        simp at h1 h2 h3
        subst h1 h2 h3 hv'
        refine ⟨c, d, more, hs, (parseInt_iff (by omega)).1 hf, ?_⟩
        by_cases hm : more = []
        · subst hm
          rw [if_pos rfl]
          rw [if_pos (by simp)] at hsz
          obtain ⟨t, ht, hl⟩ := sliceTo_ok.1 hsz
          have ht2 : t.length = 2 := by
            have := congrArg List.length ht
            simp only [List.length_append] at this
            omega
          match t, ht2 with
          | [x, y], _ => exact ⟨sz, x, y, ht, (parseInt_iff (by omega)).1 hsize⟩
        · rw [if_neg hm]
          rw [if_neg (by simpa using hm)] at hsz
          simp only [Res.pure_eq, Res.ok.injEq] at hsz
          rw [hsz]
          exact (parseInt_iff (by omega)).1 hsize
  · rintro ⟨f, ⟨sf, ss, more, hs, hf, hsz⟩, h2, hk⟩
    obtain ⟨key, fb, size, k⟩ := q
    simp only at h2 hk hs hsz ⊢
    rw [if_neg (by rw [hs]; simp)]
    simp only [bind_ok_iff, index_ok, numRes_ok]
    refine ⟨sf, by rw [hs]; rfl, f, (parseInt_iff (by omega)).2 hf, ss, by rw [hs]; rfl, ?_⟩
    by_cases hm : more = []
    · rw [if_pos hm] at hsz
      obtain ⟨d, a, b, hd, hn⟩ := hsz
      refine ⟨d, ?_, size, (parseInt_iff (by omega)).2 hn, k, hk, key, by rw [hs]; rfl, by rw [h2]; rfl⟩
      rw [hs, hm, if_pos (by simp)]
      exact sliceTo_ok.2 ⟨[a, b], hd, by rw [hd]; simp⟩
    · rw [if_neg hm] at hsz
      refine ⟨ss, ?_, size, (parseInt_iff (by omega)).2 hsz, k, hk, key, by rw [hs]; rfl, by rw [h2]; rfl⟩
      rw [hs, if_neg (by simpa using hm)]
      rfl

theorem multiBlock_iff {l i r : Bytes} {item : Item} : Text.parseBlock l i = (.ok item, r)
    ↔ ∃ key flags value pad, i = value ++ pad ++ r ∧ MultiHead l key flags value.length ∧ pad.length = 2
        ∧ value.length + 2 ≤ maxAlloc
        ∧ item = { key := key, value := value, flags := some (putBE 4 (toUnsigned 32 flags)) } := by
  rw [parseBlock_eq, lift_ok_iff]
  constructor
  · rintro ⟨q, hq, h⟩
    obtain ⟨flags, h1, h2, h3⟩ := multiHead_iff.1 hq
    obtain ⟨value, pad, e1, e2, e3, e4⟩ := (body_ok h3).1 h
    have := (makeLen_ok.1 h3)
    exact ⟨q.1, flags, value, pad, e1, by rw [e2]; exact h1, e3, by omega, by rw [e4, h2]⟩
  · rintro ⟨key, flags, value, pad, e1, h1, e3, hm, rfl⟩
    have hk : makeLen ((value.length : Int) + 2) = .ok (value.length + 2) := makeLen_ok.2 ⟨by omega, hm⟩
    exact ⟨(key, putBE 4 (toUnsigned 32 flags), value.length, value.length + 2), multiHead_iff.2 ⟨flags, h1, rfl, hk⟩,
      (body_ok hk).2 ⟨value, pad, e1, rfl, e3, rfl⟩⟩

theorem multiHead_head {l key : Bytes} {flags size : Int} (h : MultiHead l key flags size) : l ≠ Text.msgEnd := by
  obtain ⟨_, _, _, hs, _⟩ := h
  exact not_end_of_value (by rw [hs]; rfl)

theorem textLoop_ok {n : Nat} {acc l : List Item} {i r : Bytes} (hn : i.length < n) :
    Text.parseLoop n acc i = (.ok l, r) ↔ ∃ b items, Blocks MultiBlock b items ∧ i = b ++ b!"END\r\n" ++ r ∧ l = acc ++ items := by
  induction n generalizing acc i with
  | zero => omega
  | succ n ih =>
    unfold Text.parseLoop
    rw [line_iff (by simp)]
    constructor
    · rintro ⟨hdr, s, ⟨rfl, hl, hlen⟩, he⟩
      rw [Rd.ite_apply'] at he
      split at he
      · rename_i h
        subst h
        simp only [Rd.pure_apply, Prod.mk.injEq, Res.ok.injEq] at he
        obtain ⟨rfl, rfl⟩ := he
        exact ⟨[], [], .nil, rfl, by simp⟩
      · rw [Rd.bind_apply] at he
        cases hb : Text.parseBlock hdr s with
        | mk x s' =>
          rw [hb] at he
          cases x with
          | err e => simp at he
          | panic => simp at he
          | ok item =>
            obtain ⟨key, flags, value, pad, rfl, h1, h2, h3, rfl⟩ := multiBlock_iff.1 hb
            simp only at he
            obtain ⟨b, items, hbs, rfl, rfl⟩ := (ih (by
              obtain ⟨p, rfl, _⟩ := hl
              simp only [List.length_append, List.length_cons, List.length_nil] at hn
              omega)).1 he
            exact ⟨_, _, .cons (.mk hl hlen h1 h3 h2) hbs, by simp, by simp⟩
    · rintro ⟨b, items, hbs, rfl, rfl⟩
      cases hbs with
      | nil =>
        refine ⟨Text.msgEnd, r, ⟨rfl, line_end, by decide⟩, ?_⟩
        rw [Rd.ite_apply', if_pos rfl]
        simp
      | @cons _ i' item items' hb hbs =>
        cases hb with
        | @mk hdr key value pad flags hl hlen h1 h2 h3 =>
          refine ⟨hdr, value ++ pad ++ (i' ++ b!"END\r\n" ++ r), ⟨by simp, hl, hlen⟩, ?_⟩
          rw [Rd.ite_apply', if_neg (multiHead_head h1), Rd.bind_of_ok (multiBlock_iff.2 ⟨key, flags, value, pad, rfl, h1, h3, h2, rfl⟩)]
          refine (ih ?_).2 ⟨i', items', hbs, rfl, by simp⟩
          obtain ⟨p, rfl, _⟩ := hl
          simp only [List.length_append, List.length_cons, List.length_nil] at hn ⊢
          omega

/-- **C70**, text GetMulti: it returns items exactly for blocks followed by `END`, one item per block. -/
theorem C70_text_getMulti (name : Bytes) (ks : List Bytes) (i r : Bytes) (items : List Item) :
    (Text.getMulti name ks).rd i = (.ok items, r)
      ↔ ∃ b its, Blocks MultiBlock b its ∧ i = b ++ b!"END\r\n" ++ r ∧ items = its.map fun v => { v with server := name } := by
  show (Text.parseGetResponse >>= _) i = _ ↔ _
  rw [Rd.bind_apply, show Text.parseGetResponse i = Text.parseLoop (i.length + 1) [] i from rfl]
  constructor
  · intro h
    cases hp : Text.parseLoop (i.length + 1) [] i with
    | mk x r' =>
      rw [hp] at h
      cases x with
      | err e => simp at h
      | panic => simp at h
      | ok l =>
        simp only [Rd.pure_apply, Prod.mk.injEq, Res.ok.injEq] at h
        obtain ⟨rfl, rfl⟩ := h
        obtain ⟨b, its, h1, h2, rfl⟩ := (textLoop_ok (by omega)).1 hp
        exact ⟨b, _, h1, h2, rfl⟩
  · rintro ⟨b, its, h1, h2, rfl⟩
    rw [(textLoop_ok (i := i) (by omega)).2 ⟨b, its, h1, h2, rfl⟩]
    rfl

/-! ### What is accepted that should not be -/

theorem decimal_ascii {z : Bytes} {n : Int} (h : Decimal z n) : ∀ c ∈ z, c.toNat < 0x80 ∧ c ≠ 32 ∧ c ≠ 10 := by
  have hd : ∀ {t : Bytes} {m : Nat}, Digits t m → ∀ c ∈ t, c.toNat < 0x80 ∧ c ≠ 32 ∧ c ≠ 10 := by
    intro t m hd c hc
    have := hd.2.1 c hc
    refine ⟨by omega, ?_, ?_⟩ <;> (rintro rfl; simp at this)
  cases h with
  | plain h => exact hd h
  | plus h =>
    intro c hc
    rcases List.mem_cons.1 hc with rfl | hc
    · decide
    · exact hd h c hc
  | minus h =>
    intro c hc
    rcases List.mem_cons.1 hc with rfl | hc
    · decide
    · exact hd h c hc

theorem decodeRune_big (c : UInt8) (j : Bytes) (h : ¬ c.toNat < 0x80) : 0x80 ≤ (decodeRune c j).1 := by
  unfold decodeRune
  simp only [h, if_false]
  cases j with
  | nil => simp
  | cons b1 r1 =>
    simp only
    split
    · split
      · simp only; omega
      · simp
    · cases r1 with
      | nil => simp
      | cons b2 r2 =>
        simp only
        split
        · by_cases h4 : c.toNat = 224
          · simp only [h4, if_true]
            cases h3 : (inB b1 160 (if 224 = 237 then 159 else 191) && inB b2 128 191) with
            | false => simp
            | true =>
              simp only [inB, Bool.and_eq_true, decide_eq_true_eq] at h3
              simp only [if_true]
              omega
          · cases h3 : (inB b1 (if c.toNat = 224 then 160 else 128) (if c.toNat = 237 then 159 else 191)
                && inB b2 128 191) with
            | false => simp
            | true => simp only [if_true]; omega
        · cases r2 with
          | nil => simp
          | cons b3 r3 =>
            simp only
            split
            · by_cases h4 : c.toNat = 240
              · simp only [h4, if_true]
                cases h3 : (inB b1 144 (if 240 = 244 then 143 else 191) && inB b2 128 191 && inB b3 128 191) with
                | false => simp
                | true =>
                  simp only [inB, Bool.and_eq_true, decide_eq_true_eq] at h3
                  simp only [if_true]
                  omega
              · cases h3 : (inB b1 (if c.toNat = 240 then 144 else 128) (if c.toNat = 244 then 143 else 191)
                    && inB b2 128 191 && inB b3 128 191) with
                | false => simp
                | true => simp only [if_true]; omega
            · simp

theorem noDigit_decode {j : Bytes} (h : ∀ c, j.head? = some c → isDigit c = false) : NoDigit (decodeRunes j) := by
  cases j with
  | nil => intro r hr; simp [decodeRunes] at hr
  | cons c j =>
    intro r hr hd
    have hc := h c rfl
    rw [decodeRunes] at hr
    simp only [List.head?_cons, Option.some.injEq] at hr
    by_cases h1 : c.toNat < 0x80
    · have : decodeRune c j = (c.toNat, 1) := by simp [decodeRune, h1]
      rw [this] at hr
      simp only at hr
      have : isDigit c = true := (isDigit_iff c).2 (by omega)
      rw [hc] at this; cases this
    · have := decodeRune_big c j h1
      omega

theorem count_zero {c : UInt8} {b : Bytes} (h : c ∉ b) : b.count c = 0 := List.count_eq_zero.2 h

/-- A header line with anything after the size. -/
theorem valueHead_junk {key z junk : Bytes} {flags : Nat} {size : Int} (hk : TextKey key) (hf : flags < 2 ^ 32)
    (hz : Num 64 z size) (hj : 32 ∉ junk) (hd : ∀ c, junk.head? = some c → isDigit c = false) :
    ValueHead (b!"VALUE " ++ key ++ b!" " ++ natDec flags ++ b!" " ++ z ++ junk ++ b!"\n") key flags size 0 := by
  have hplain := hk.plain
  obtain ⟨rs, hne, rfl, hsc, hsp⟩ := hk
  have hza := decimal_ascii hz.1
  refine ⟨b!" " ++ (rs.flatMap encodeRune ++ (b!" " ++ (natDec flags ++ (b!" " ++ (z ++ (junk ++ b!"\n")))))),
    [32], rs, [32], natDec flags, [32], z, decodeRunes (junk ++ b!"\n"), by simp, ?_, ?_, ⟨hne, hsp⟩, ?_, ?_, ?_, hz, rfl, ?_⟩
  · rw [decodeRunes_asciis b!" " (by decide), decodeRunes_runes rs hsc, decodeRunes_asciis b!" " (by decide), decode_natDec,
      decodeRunes_asciis b!" " (by decide), decodeRunes_asciis z (fun c hc => (hza c hc).1)]
    rfl
  · exact ⟨by simp, by decide⟩
  · exact ⟨by simp, by decide⟩
  · exact parseUint_iff.1 (parseUint_natDec flags 32 hf)
  · exact ⟨by simp, by decide⟩
  · rw [if_pos]
    · refine ⟨noDigit_decode fun c hc => ?_, rfl⟩
      cases junk with
      | nil => simp only [List.nil_append, List.head?_cons, Option.some.injEq] at hc; subst hc; decide
      | cons x junk => exact hd c hc
    · simp [List.count_append, count_zero hplain.1, count_zero (natDec_no32 flags), count_zero hj,
        count_zero (fun h => (hza 32 h).2.1 rfl), List.count_cons]

/-- **C70**: text Get does not look at what follows the size on the header line (no digit, no space), nor at the two
bytes after the value, nor at the key. -/
theorem C70_text_get_junk (name k key value junk r : Bytes) (flags : Nat) (a b : UInt8) (hk : TextKey key)
    (hf : flags < 2 ^ 32) (hj : 32 ∉ junk) (hj' : 10 ∉ junk) (hd : ∀ c, junk.head? = some c → isDigit c = false)
    (hl : key.length + junk.length ≤ 4000) (hv : value.length + 2 ≤ maxAlloc) :
    (Text.get name k).rd (b!"VALUE " ++ key ++ b!" " ++ natDec flags ++ b!" " ++ natDec value.length ++ junk ++ b!"\n"
        ++ value ++ [a, b] ++ b!"END\r\n" ++ r)
      = (.ok { key := key, value := value, flags := some (putBE 4 flags), server := name }, r) := by
  have hm : maxAlloc = 281474976710656 := by unfold maxAlloc; decide
  have hz : Num 64 (natDec value.length) value.length := (parseInt_iff (by omega)).1 (parseInt_natDec _ 64 (by omega) (by omega))
  refine (C70_text_get name k _ r _).2 ⟨_, key, value, [a, b], flags, 0, rfl, ?_, ?_, valueHead_junk hk hf hz hj hd, rfl, hv, rfl⟩
  · refine ⟨b!"VALUE " ++ key ++ b!" " ++ natDec flags ++ b!" " ++ natDec value.length ++ junk, rfl, ?_⟩
    simp [hk.plain.2, natDec_no10, hj']
  · have h1 := natDec_length64 flags (by omega)
    have h2 := natDec_length64 value.length (by omega)
    simp
    omega

/-- **C70**: a negative size makes text Get panic, whatever follows. -/
theorem C70_text_negative (name k key rest : Bytes) (flags n : Nat) (hk : TextKey key) (hf : flags < 2 ^ 32)
    (hl : key.length ≤ 4000) (hn : 2 ≤ n) (hn' : n ≤ 2 ^ 63) :
    Panics (Text.get name k) (b!"VALUE " ++ key ++ b!" " ++ natDec flags ++ b!" -" ++ natDec n ++ b!"\r\n" ++ rest) := by
  have hd : Digits (natDec n) n := (parseUint_iff.1 (parseUint_natDec n 64 (by omega))).1
  have hz : Num 64 (45 :: natDec n) (-n) := ⟨.minus hd, by unfold InRange; omega⟩
  refine (C70_text_get_panics name k _).2 ⟨_, rest, key, flags, -n, 0, ⟨?_, ?_, ?_⟩,
    valueHead_junk hk hf hz (junk := b!"\r") (by decide) (by intro c hc; simp at hc; subst hc; decide), .inl (by omega)⟩
  · simp
  · refine ⟨b!"VALUE " ++ key ++ b!" " ++ natDec flags ++ b!" " ++ (45 :: natDec n) ++ b!"\r", by simp, ?_⟩
    simp [hk.plain.2, natDec_no10]
  · have h1 := natDec_length64 flags (by omega)
    have h2 := natDec_length64 n (by omega)
    simp
    omega

/-- Non-vacuity: a header line with a tab, an ideographic space and a sign; blocks of a GetMulti. -/
example : ∃ item, (Text.get b!"s" b!"k").rd (b!"VALUE\tk " ++ [0xE3, 0x80, 0x80] ++ b!"0  +2x\nabXYEND\r\n") = (.ok item, []) := by
  refine ⟨{ key := b!"k", value := b!"ab", flags := some [0, 0, 0, 0], server := b!"s" }, ?_⟩
  decide +kernel

example : (Text.getMulti b!"s" [b!"k"]).rd b!"VALUE k -1 1 x y\nzXYEND\r\n"
    = (.ok [{ key := b!"k", value := b!"z", flags := some [255, 255, 255, 255], server := b!"s" }], []) := by
  decide +kernel

end Props
end Verif
