import Verif.Props.ClientPanics
import Verif.Props.ServeLoop
/-!
C38: which byte streams make the server's request parser panic, as equivalences; and which
streams crash a serving connection.  C39: what the server writes for an error response.
-/

namespace Verif
namespace Spec
open Srv

/-- The stream starts with a text request line with these space-separated words; `r` follows. -/
def TextReq (i : Bytes) (words : List Bytes) (r : Bytes) : Prop :=
  ∃ l, i = l ++ r ∧ Line l ∧ words = splitSp (trimSuffix l crlf)

/-- A data length for which `make([]byte, n+2)` or the slice `[:n]` after reading panics:
negative, where -1 first waits for one more byte. -/
def BadLen (n : Int) (rest : Bytes) : Prop := n < -1 ∨ (n = -1 ∧ rest ≠ [])

/-- A flag token of `ms` the server accepts: not empty, and a number of the right size behind
the letters that take one. -/
def MsTokenOk : Bytes → Prop
  | [] => False
  | c :: t =>
    (c = 67 → ∃ v, parseUint t 64 = some v)        -- 'C'
    ∧ (c = 79 → ∃ v, parseInt t 64 = some v)       -- 'O'
    ∧ (c = 70 ∨ c = 83 ∨ c = 84 → ∃ v, parseInt t 32 = some v)  -- 'F', 'S', 'T'

/-- The data length of an `ms` request: the last `S` token, otherwise the second argument. -/
def msLen (n : Int) : List Bytes → Int
  | [] => n
  | (83 :: t) :: ts => msLen ((parseInt t 32).getD 0) ts
  | _ :: ts => msLen n ts

/-- The text requests that crash the server. -/
inductive CrashText : List Bytes → Bytes → Prop
  | store {cmd key flags exp len : Bytes} {rest : Bytes} {f e n : Int}
      (hc : cmd = b!"set" ∨ cmd = b!"add" ∨ cmd = b!"replace")
      (hf : parseInt flags 32 = some f) (he : parseInt exp 32 = some e)
      (hn : parseInt len 32 = some n) (hb : BadLen n rest) :
      CrashText [cmd, key, flags, exp, len] rest
  | msEmpty {key sz : Bytes} {n : Nat} {before after : List Bytes} {rest : Bytes}
      (hn : parseUint sz 32 = some n) (hb : ∀ t ∈ before, MsTokenOk t) :
      CrashText (b!"ms" :: key :: sz :: (before ++ [] :: after)) rest
  | msLen {key sz : Bytes} {n : Nat} {tokens : List Bytes} {rest : Bytes}
      (hn : parseUint sz 32 = some n) (ht : ∀ t ∈ tokens, MsTokenOk t)
      (hb : BadLen (msLen n tokens) rest) :
      CrashText (b!"ms" :: key :: sz :: tokens) rest

/-- The binary requests that crash the server, in terms of opcode, extras length, key length
and total body length of the header and of the number of bytes that follow. -/
inductive CrashBin : (op extras key body following : Nat) → Prop
  | storeExtras {op x k b m : Nat} (ho : op = 1 ∨ op = 2 ∨ op = 3) (hx : x < 8) (hm : x ≤ m) :
      CrashBin op x k b m
  | storeBody {op x k b m : Nat} (ho : op = 1 ∨ op = 2 ∨ op = 3) (hx : 8 ≤ x) (hb : b < x + k) (hm : x + k ≤ m) :
      CrashBin op x k b m
  | arith {op x k b m : Nat} (ho : op = 5 ∨ op = 6) (hx : x < 20) (hm : x ≤ m) : CrashBin op x k b m
  | touch {op x k b m : Nat} (ho : op = 28) (hx : x < 4) (hm : x ≤ m) : CrashBin op x k b m

/-- The streams on which reading the next request panics. -/
def CrashReq : Protocol → Bytes → Prop
  | .ascii, i => ∃ words r, TextReq i words r ∧ CrashText words r
  | .binary, i => ∃ h r, i = h ++ r ∧ h.length = 24 ∧ h.head? = some 0x80
      ∧ CrashBin (h.getD 1 0).toNat (h.getD 4 0).toNat (getBE ((h.take 4).drop 2)) (getBE ((h.take 12).drop 8)) r.length

end Spec

namespace Props
open Srv Spec

/-- Reading panics on this stream. -/
def RPanic {α : Type} (m : Rd α) (i : Bytes) : Prop := ∃ r, m i = (.panic, r)

theorem rpanic_lift_ok {α β : Type} {a : Res α} {f : α → Rd β} {i : Bytes} {v : α} (h : a = .ok v) :
    RPanic (Rd.lift a >>= f) i ↔ RPanic (f v) i := by subst h; rfl
theorem rpanic_lift_num {α β : Type} {a : Option α} {f : α → Rd β} {i : Bytes} :
    RPanic (Rd.lift (numRes a) >>= f) i ↔ ∃ v, a = some v ∧ RPanic (f v) i := by
  cases a with
  | none => simp [RPanic, Rd.bind_apply, numRes]
  | some v => simp [RPanic, Rd.bind_apply, numRes]
theorem rpanic_fail {α : Type} {e : Err} {i : Bytes} : ¬ RPanic (Rd.fail e : Rd α) i := by simp [RPanic]
theorem rpanic_pure {α : Type} {a : α} {i : Bytes} : ¬ RPanic (pure a : Rd α) i := by simp [RPanic]
theorem rpanic_full {β : Type} {n : Nat} {f : Bytes → Rd β} {i : Bytes} :
    RPanic (readFull n >>= f) i ↔ n ≤ i.length ∧ RPanic (f (i.take n)) (i.drop n) := by
  constructor
  · rintro ⟨r, h⟩
    obtain ⟨b, r', rfl, rfl, he⟩ := (full_iff (by simp)).1 h
    exact ⟨by simp, r, by simpa using he⟩
  · rintro ⟨hn, r, h⟩
    exact ⟨r, (full_iff (by simp)).2 ⟨_, _, (List.take_append_drop n i).symm, by simp; omega, h⟩⟩
theorem NoPanic.not {α : Type} {m : Rd α} (h : NoPanic m) (i : Bytes) : ¬ RPanic m i := by
  rintro ⟨r, hr⟩
  exact h i (by rw [hr])

theorem parseInt_range {t : Bytes} {n : Int} (h : parseInt t 32 = some n) : -2147483648 ≤ n ∧ n < 2147483648 := by
  unfold parseInt at h
  have key : ∀ {s : Bytes} {m : Nat}, parseUint s 32 = some m → m < 4294967296 := by
    intro s m hm
    unfold parseUint at hm
    split at hm
    · simp at hm
    · split at hm
      · split at hm
        · simp at hm; omega
        · simp at hm
      · simp at hm
  split at h
  · simp at h
  · split at h
    · split at h
      · split at h <;> simp at h; omega
      · simp at h
    · split at h
      · split at h
        · split at h <;> simp at h; omega
        · simp at h
      · split at h
        · split at h <;> simp at h; omega
        · simp at h

theorem badSize_iff {n : Int} {r : Bytes} (h : n < 4294967296) : BadSize n r ↔ BadLen n r := by
  have hm : maxAlloc = 281474976710656 := by unfold maxAlloc; decide
  unfold BadSize BadLen
  rw [hm]
  constructor
  · rintro (h | h | h)
    · exact .inl h
    · omega
    · exact .inr h
  · rintro (h | h)
    · exact .inl h
    · exact .inr (.inr h)

theorem readStore_panic (op : UInt8) (cmd : Bytes) (args : List Bytes) (r : Bytes)
    (hc : cmd = b!"set" ∨ cmd = b!"add" ∨ cmd = b!"replace") :
    RPanic (readStore op (cmd :: args)) r ↔ CrashText (cmd :: args) r := by
  constructor
  · intro h
    match args with
    | [key, sf, se, sl] =>
      unfold readStore at h
      simp only at h
      obtain ⟨f, hf, h⟩ := rpanic_lift_num.1 h
      obtain ⟨e, he, h⟩ := rpanic_lift_num.1 h
      obtain ⟨n, hn, h⟩ := rpanic_lift_num.1 h
      have := (bytes_panic (fun v => noPanic_pure _)).1 h
      exact .store hc hf he hn ((badSize_iff (by have := parseInt_range hn; omega)).1 this)
    | [] => exact absurd h rpanic_fail
    | [_] => exact absurd h rpanic_fail
    | [_, _] => exact absurd h rpanic_fail
    | [_, _, _] => exact absurd h rpanic_fail
    | _ :: _ :: _ :: _ :: _ :: _ => exact absurd h rpanic_fail
  · intro h
    generalize hw : cmd :: args = w at h
    cases h with
    | store hc' hf he hn hb =>
      unfold readStore
      refine rpanic_lift_num.2 ⟨_, hf, rpanic_lift_num.2 ⟨_, he, rpanic_lift_num.2 ⟨_, hn, ?_⟩⟩⟩
      exact (bytes_panic (fun v => noPanic_pure _)).2 ((badSize_iff (by have := parseInt_range hn; omega)).2 hb)
    | msEmpty => simp at hw; rcases hc with rfl | rfl | rfl <;> simp at hw
    | msLen => simp at hw; rcases hc with rfl | rfl | rfl <;> simp at hw

theorem msToken_ok {o : SetOpt} {t : Bytes} :
    (∃ o', msToken o t = .ok o' ∧ o'.size = msLen o.size [t]) ↔ MsTokenOk t := by
  cases t with
  | nil => simp [msToken, MsTokenOk]
  | cons c t =>
    unfold msToken MsTokenOk
    by_cases h1 : c = 67
    · subst h1
      cases h : parseUint t 64 <;> simp [numRes, msLen, h]
    by_cases h2 : c = 70
    · subst h2
      cases h : parseInt t 32 <;> simp [numRes, msLen, h]
    by_cases h3 : c = 79
    · subst h3
      cases h : parseInt t 64 <;> simp [numRes, msLen, h]
    by_cases h4 : c = 83
    · subst h4
      cases h : parseInt t 32 <;> simp [numRes, msLen, h]
    by_cases h5 : c = 84
    · subst h5
      cases h : parseInt t 32 <;> simp [numRes, msLen, h]
    have hl : msLen o.size [c :: t] = o.size := by
      unfold msLen
      split
      · rename_i h; cases h
      · rename_i h; simp only [List.cons.injEq] at h; exact absurd h.1.1 h4
      · rename_i h; simp at h; obtain ⟨_, rfl⟩ := h; rfl
    rw [hl]
    simp only [h1, h2, h3, h4, h5, if_false]
    have triv : ∀ p : Prop, (False → p) ↔ True := fun _ => by simp
    simp only [false_or, triv, and_true, iff_true]
    split
    · exact ⟨_, rfl, rfl⟩
    · split
      · exact ⟨_, rfl, rfl⟩
      · split
        · exact ⟨_, rfl, rfl⟩
        · exact ⟨_, rfl, rfl⟩

theorem msToken_panic {o : SetOpt} {t : Bytes} : msToken o t = .panic ↔ t = [] := by
  cases t with
  | nil => simp [msToken]
  | cons c t =>
    simp only [reduceCtorEq, iff_false]
    unfold msToken
    have hn : ∀ {α : Type} (x : Option α) (f : α → SetOpt), (numRes x >>= fun v => (pure (f v) : Res SetOpt)) ≠ .panic := by
      intro α x f; cases x <;> simp [numRes]
    dsimp only
    by_cases h1 : c = 67
    · rw [if_pos h1]; exact hn _ _
    by_cases h2 : c = 70
    · rw [if_neg h1, if_pos h2]; exact hn _ _
    by_cases h3 : c = 73
    · rw [if_neg h1, if_neg h2, if_pos h3]; simp
    by_cases h4 : c = 107
    · rw [if_neg h1, if_neg h2, if_neg h3, if_pos h4]; simp
    by_cases h5 : c = 79
    · rw [if_neg h1, if_neg h2, if_neg h3, if_neg h4, if_pos h5]; exact hn _ _
    by_cases h6 : c = 113
    · rw [if_neg h1, if_neg h2, if_neg h3, if_neg h4, if_neg h5, if_pos h6]; simp
    rw [if_neg h1, if_neg h2, if_neg h3, if_neg h4, if_neg h5, if_neg h6]
    by_cases h7 : c = 83
    · rw [if_pos h7]; exact hn _ _
    by_cases h8 : c = 84
    · rw [if_neg h7, if_pos h8]; exact hn _ _
    rw [if_neg h7, if_neg h8]; simp

theorem msToken_of_ok {o o' : SetOpt} {t : Bytes} (h : msToken o t = .ok o') :
    MsTokenOk t ∧ o'.size = msLen o.size [t] := by
  by_cases ht : MsTokenOk t
  · obtain ⟨o2, h2, h3⟩ := msToken_ok.2 ht
    rw [h] at h2
    cases h2
    exact ⟨ht, h3⟩
  · exfalso
    apply ht
    cases t with
    | nil => simp [msToken] at h
    | cons c t =>
      unfold msToken at h
      unfold MsTokenOk
      refine ⟨?_, ?_, ?_⟩
      · rintro rfl
        cases hp : parseUint t 64 with
        | some v => exact ⟨v, rfl⟩
        | none => simp [hp, numRes] at h
      · rintro rfl
        cases hp : parseInt t 64 with
        | some v => exact ⟨v, rfl⟩
        | none => simp [hp, numRes] at h
      · rintro (rfl | rfl | rfl)
        · cases hp : parseInt t 32 with
          | some v => exact ⟨v, rfl⟩
          | none => simp [hp, numRes] at h
        · cases hp : parseInt t 32 with
          | some v => exact ⟨v, rfl⟩
          | none => simp [hp, numRes] at h
        · cases hp : parseInt t 32 with
          | some v => exact ⟨v, rfl⟩
          | none => simp [hp, numRes] at h

theorem msLen_cons (n : Int) (t : Bytes) (ts : List Bytes) : msLen n (t :: ts) = msLen (msLen n [t]) ts := by
  match t with
  | [] => rfl
  | c :: t =>
    by_cases h : c = 83
    · subst h; rfl
    · have h1 : ∀ ts, msLen n ((c :: t) :: ts) = msLen n ts := by
        intro ts
        conv => lhs; unfold msLen
        split
        · rename_i h'; cases h'
        · rename_i h'; simp only [List.cons.injEq] at h'; exact absurd h'.1.1 h
        · rename_i h'; simp at h'; obtain ⟨_, rfl⟩ := h'; rfl
      rw [h1, h1]; rfl

theorem msTokens_ok {o : SetOpt} {ts : List Bytes} :
    (∀ t ∈ ts, MsTokenOk t) ↔ ∃ o', msTokens o ts = .ok o' ∧ o'.size = msLen o.size ts := by
  induction ts generalizing o with
  | nil => simp [msTokens, msLen]
  | cons t ts ih =>
    constructor
    · intro h
      obtain ⟨o1, h1, h2⟩ := msToken_ok (o := o).2 (h t (by simp))
      obtain ⟨o2, h3, h4⟩ := (ih (o := o1)).1 (fun t ht => h t (by simp [ht]))
      refine ⟨o2, ?_, ?_⟩
      · unfold msTokens; rw [h1]; exact h3
      · rw [h4, h2, ← msLen_cons]
    · rintro ⟨o', h, hl⟩
      unfold msTokens at h
      cases h1 : msToken o t with
      | ok o1 =>
        rw [h1] at h
        have h2 := msToken_of_ok h1
        intro u hu
        rcases List.mem_cons.1 hu with rfl | hu
        · exact h2.1
        · refine (ih (o := o1)).2 ⟨o', h, ?_⟩ u hu
          rw [hl, msLen_cons, h2.2]
      | err e => rw [h1] at h; simp at h
      | panic => rw [h1] at h; simp at h

theorem msTokens_of_ok {o o' : SetOpt} {ts : List Bytes} (h : msTokens o ts = .ok o') :
    (∀ t ∈ ts, MsTokenOk t) ∧ o'.size = msLen o.size ts := by
  induction ts generalizing o with
  | nil => simp [msTokens] at h; subst h; exact ⟨by simp, rfl⟩
  | cons t ts ih =>
    unfold msTokens at h
    cases h1 : msToken o t with
    | ok o1 =>
      rw [h1] at h
      have h2 := msToken_of_ok h1
      obtain ⟨h3, h4⟩ := ih h
      refine ⟨?_, by rw [h4, h2.2, ← msLen_cons]⟩
      intro u hu
      rcases List.mem_cons.1 hu with rfl | hu
      · exact h2.1
      · exact h3 u hu
    | err e => rw [h1] at h; simp at h
    | panic => rw [h1] at h; simp at h

theorem msTokens_panic {o : SetOpt} {ts : List Bytes} :
    msTokens o ts = .panic ↔ ∃ before after, ts = before ++ [] :: after ∧ ∀ t ∈ before, MsTokenOk t := by
  induction ts generalizing o with
  | nil => simp [msTokens]
  | cons t ts ih =>
    unfold msTokens
    constructor
    · intro h
      cases h1 : msToken o t with
      | ok o1 =>
        rw [h1] at h
        obtain ⟨b, a, rfl, hb⟩ := ih.1 h
        refine ⟨t :: b, a, rfl, ?_⟩
        intro u hu
        rcases List.mem_cons.1 hu with rfl | hu
        · exact (msToken_of_ok h1).1
        · exact hb u hu
      | err e => rw [h1] at h; simp at h
      | panic =>
        have := msToken_panic.1 h1
        subst this
        exact ⟨[], ts, rfl, by simp⟩
    · rintro ⟨b, a, h, hb⟩
      cases b with
      | nil =>
        simp at h
        obtain ⟨rfl, rfl⟩ := h
        rfl
      | cons u b =>
        simp at h
        obtain ⟨rfl, rfl⟩ := h
        obtain ⟨o1, h1, _⟩ := msToken_ok (o := o).2 (hb t (by simp))
        rw [h1]
        exact ih.2 ⟨b, a, rfl, fun t ht => hb t (by simp [ht])⟩

theorem msLen_lt {n : Int} {ts : List Bytes} (h : n < 4294967296) : msLen n ts < 4294967296 := by
  induction ts generalizing n with
  | nil => exact h
  | cons t ts ih =>
    rw [msLen_cons]
    apply ih
    match t with
    | [] => exact h
    | c :: t =>
      unfold msLen
      split
      · exact h
      · rename_i t' _ h'
        simp at h'
        obtain ⟨⟨_, rfl⟩, rfl⟩ := h'
        show (parseInt t 32).getD 0 < 4294967296
        cases hp : parseInt t 32 with
        | none => simp
        | some v => have := parseInt_range hp; simp; omega
      · rename_i h'; simp at h'; obtain ⟨_, rfl⟩ := h'; exact h

theorem parseUint_range {t : Bytes} {n : Nat} (h : parseUint t 32 = some n) : n < 4294967296 := by
  unfold parseUint at h
  split at h
  · simp at h
  · split at h
    · split at h
      · simp at h; omega
      · simp at h
    · simp at h

theorem readMs_panic (args : List Bytes) (r : Bytes) :
    RPanic (readMs (b!"ms" :: args)) r ↔ CrashText (b!"ms" :: args) r := by
  constructor
  · intro h
    match args with
    | key :: sz :: tokens =>
      unfold readMs at h
      simp only at h
      obtain ⟨v, hv, h⟩ := rpanic_lift_num.1 h
      cases ht : msTokens { metaCmd := true, size := (v : Int) } tokens with
      | ok o =>
        rw [rpanic_lift_ok ht] at h
        obtain ⟨h1, h2⟩ := msTokens_of_ok ht
        have := (bytes_panic (fun v => noPanic_pure _)).1 h
        rw [h2] at this
        exact .msLen hv h1 ((badSize_iff (msLen_lt (by have := parseUint_range hv; show (v : Int) < _; omega))).1 this)
      | err e => rw [ht] at h; simp [RPanic, Rd.bind_apply] at h
      | panic =>
        obtain ⟨b, a, rfl, hb⟩ := msTokens_panic.1 ht
        exact .msEmpty hv hb
    | [] => exact absurd h rpanic_fail
    | [_] => exact absurd h rpanic_fail
  · intro h
    generalize hw : b!"ms" :: args = w at h
    cases h with
    | store hc => simp at hw; rcases hc with rfl | rfl | rfl <;> simp at hw
    | @msEmpty key sz n before after rest hn hb =>
      unfold readMs
      refine rpanic_lift_num.2 ⟨n, hn, ?_⟩
      have ht : msTokens { metaCmd := true, size := (n : Int) } (before ++ [] :: after) = .panic :=
        msTokens_panic.2 ⟨_, _, rfl, hb⟩
      rw [ht]
      exact ⟨r, rfl⟩
    | @msLen key sz n tokens rest hn ht hb =>
      unfold readMs
      refine rpanic_lift_num.2 ⟨n, hn, ?_⟩
      obtain ⟨o, ho, hs⟩ := (msTokens_ok (o := { metaCmd := true, size := (n : Int) })).1 ht
      rw [rpanic_lift_ok ho]
      refine (bytes_panic (fun v => noPanic_pure _)).2 ?_
      rw [hs]
      exact (badSize_iff (msLen_lt (by have := parseUint_range hn; show (n : Int) < _; omega))).2 hb

theorem crashText_cmd {cmd : Bytes} {args : List Bytes} {r : Bytes} (h : CrashText (cmd :: args) r) :
    cmd = b!"set" ∨ cmd = b!"add" ∨ cmd = b!"replace" ∨ cmd = b!"ms" := by
  generalize hw : cmd :: args = w at h
  cases h with
  | store hc => simp at hw; rcases hc with h | h | h <;> simp [hw, h]
  | msEmpty => simp at hw; simp [hw]
  | msLen => simp at hw; simp [hw]

theorem asciiRequest_panic (w : List Bytes) (r : Bytes) : RPanic (asciiRequest w) r ↔ CrashText w r := by
  cases w with
  | nil =>
    constructor
    · intro h; exact absurd h rpanic_fail
    · intro h; cases h
  | cons cmd args =>
    have no : ∀ {m : Rd Request}, NoPanic m → ¬ CrashText (cmd :: args) r →
        (RPanic m r ↔ CrashText (cmd :: args) r) := fun h1 h2 => ⟨fun h => absurd h (h1.not r), fun h => absurd h h2⟩
    have npDelta : ∀ op, NoPanic (readDelta op (cmd :: args)) := by
      intro op
      unfold readDelta
      split
      · rename_i sd _
        intro i
        rw [Rd.bind_apply]
        cases parseInt sd 32 <;> simp [numRes]
      · exact noPanic_fail _
    have npDel : ∀ m, NoPanic (readDelete m (cmd :: args)) := by
      intro m; unfold readDelete; split
      · exact noPanic_pure _
      · exact noPanic_fail _
    have npMg : NoPanic (readMg (cmd :: args)) := by
      unfold readMg; split
      · exact noPanic_pure _
      · exact noPanic_fail _
    by_cases h0 : cmd = b!"get"
    · subst h0
      refine no (m := asciiRequest (b!"get" :: args)) ?_ (fun h => by have := crashText_cmd h; simp at this)
      match args with
      | [] => exact noPanic_fail _
      | [k] => exact noPanic_pure _
      | _ :: _ :: _ => exact noPanic_fail _
    by_cases h1 : cmd = b!"gets"
    · subst h1
      exact no (noPanic_pure _) (fun h => by have := crashText_cmd h; simp at this)
    by_cases h2 : cmd = b!"set"
    · subst h2
      exact readStore_panic _ _ _ _ (.inl rfl)
    by_cases h3 : cmd = b!"add"
    · subst h3
      exact readStore_panic _ _ _ _ (.inr (.inl rfl))
    by_cases h4 : cmd = b!"replace"
    · subst h4
      exact readStore_panic _ _ _ _ (.inr (.inr rfl))
    by_cases h5 : cmd = b!"delete"
    · subst h5
      exact no (npDel _) (fun h => by have := crashText_cmd h; simp at this)
    by_cases h6 : cmd = b!"md"
    · subst h6
      exact no (npDel _) (fun h => by have := crashText_cmd h; simp at this)
    by_cases h7 : cmd = b!"incr"
    · subst h7
      exact no (npDelta _) (fun h => by have := crashText_cmd h; simp at this)
    by_cases h8 : cmd = b!"decr"
    · subst h8
      exact no (npDelta _) (fun h => by have := crashText_cmd h; simp at this)
    by_cases h9 : cmd = b!"touch"
    · subst h9
      exact no (npDelta _) (fun h => by have := crashText_cmd h; simp at this)
    by_cases h10 : cmd = b!"mg"
    · subst h10
      exact no npMg (fun h => by have := crashText_cmd h; simp at this)
    by_cases h11 : cmd = b!"ms"
    · subst h11
      exact readMs_panic _ _
    by_cases h12 : cmd = b!"flush_all"
    · subst h12
      exact no (noPanic_pure _) (fun h => by have := crashText_cmd h; simp at this)
    by_cases h13 : cmd = b!"version"
    · subst h13
      exact no (noPanic_pure _) (fun h => by have := crashText_cmd h; simp at this)
    have hd : asciiRequest (cmd :: args) = Rd.fail errInvalidRequest := by
      unfold asciiRequest
      show (if cmd = b!"get" then _ else _) = _
      rw [if_neg h0, if_neg h1, if_neg h2, if_neg h3, if_neg h4, if_neg h5, if_neg h6, if_neg h7, if_neg h8, if_neg h9, if_neg h10, if_neg h11, if_neg h12, if_neg h13]
    rw [hd]
    refine no (noPanic_fail _) (fun h => ?_)
    rcases crashText_cmd h with h | h | h | h <;> contradiction

theorem readBytes_iff {i l r : Bytes} : readBytes i = (.ok l, r) ↔ i = l ++ r ∧ Line l := by
  unfold readBytes
  constructor
  · intro h
    cases hs : splitLine i with
    | none => simp [hs] at h
    | some q =>
      obtain ⟨l', r'⟩ := q
      obtain ⟨e, p, hp, hn⟩ := splitLine_some hs
      simp only [hs, Prod.mk.injEq, Res.ok.injEq] at h
      obtain ⟨rfl, rfl⟩ := h
      exact ⟨e, p, hp, hn⟩
  · rintro ⟨rfl, p, rfl, hn⟩
    have := splitLine_append p r hn
    have e : p ++ [10] ++ r = p ++ 10 :: r := by simp
    rw [e, this]

theorem readAscii_panic (i : Bytes) : RPanic readAscii i ↔ CrashReq .ascii i := by
  unfold readAscii CrashReq TextReq
  constructor
  · rintro ⟨r, h⟩
    rw [Rd.bind_apply] at h
    cases hb : readBytes i with
    | mk x j =>
      rw [hb] at h
      cases x with
      | ok l =>
        obtain ⟨e, hl⟩ := readBytes_iff.1 hb
        exact ⟨_, j, ⟨l, e, hl, rfl⟩, (asciiRequest_panic _ _).1 ⟨r, h⟩⟩
      | err e => simp at h
      | panic => unfold readBytes at hb; split at hb <;> simp at hb
  · rintro ⟨w, r, ⟨l, e, hl, rfl⟩, h⟩
    obtain ⟨r', h'⟩ := (asciiRequest_panic _ _).2 h
    exact ⟨r', by rw [Rd.bind_of_ok (readBytes_iff.2 ⟨e, hl⟩)]; exact h'⟩

theorem readN_rpanic {β : Type} {n : Int} {f : Bytes → Rd β} (hf : ∀ v, NoPanic (f v)) (hm : n < 4294967296)
    {i : Bytes} : RPanic (readN n >>= f) i ↔ n < 0 := by
  have hm : maxAlloc = 281474976710656 := by unfold maxAlloc; decide
  constructor
  · rintro ⟨r, h⟩
    rcases n_panic_iff.1 h with ⟨h, _⟩ | ⟨v, r', _, _, _, h⟩
    · omega
    · exact absurd ⟨r, h⟩ ((hf v).not r')
  · intro h
    exact ⟨i, n_panic_iff.2 (.inl ⟨.inl h, rfl⟩)⟩

theorem binaryRequest_panic (h r : Bytes) (hl : h.length = 24) :
    RPanic (binaryRequest h) r ↔
      CrashBin (h.getD 1 0).toNat (h.getD 4 0).toNat (getBE ((h.take 4).drop 2)) (getBE ((h.take 12).drop 8)) r.length := by
  generalize hop : h.getD 1 0 = op
  generalize hx : (h.getD 4 0).toNat = x
  have hk : hdrKeyLen h = getBE ((h.take 4).drop 2) := rfl
  generalize hk' : getBE ((h.take 4).drop 2) = k at hk
  have hb : getBE ((h.take 12).drop 8) < 4294967296 := by
    have := getBE_lt ((h.take 12).drop 8)
    have hlen : ((h.take 12).drop 8).length = 4 := by simp [hl]
    rw [hlen] at this
    exact this
  generalize hb' : getBE ((h.take 12).drop 8) = b at hb
  have opn : ∀ m : UInt8, op = m ↔ op.toNat = m.toNat := fun m => UInt8.toNat_inj.symm
  have key : ∀ {α : Type} (f : Bytes → Rd α) (i : Bytes), (∀ v, NoPanic (f v)) → ¬ RPanic (readFull k >>= f) i :=
    fun f i hf => ((noPanic_readFull k).bind hf).not i
  by_cases o0 : op = 0
  · have e : binaryRequest h = (readFull k >>= fun key => pure { opcode := opGet, key := key }) := by
      unfold binaryRequest; rw [hop, hk, o0]; rfl
    rw [e]
    refine ⟨fun h => absurd h (key _ _ fun _ => noPanic_pure _), fun h => ?_⟩
    subst o0; cases h <;> simp at *
  by_cases o13 : op = 13
  · have e : binaryRequest h = (readFull k >>= fun key => pure { opcode := opGet, key := key, getOpt := some { noReply := true, key := true } }) := by
      unfold binaryRequest; rw [hop, hk, o13]; rfl
    rw [e]
    refine ⟨fun h => absurd h (key _ _ fun _ => noPanic_pure _), fun h => ?_⟩
    subst o13; cases h <;> simp at *
  by_cases o1 : op = 1 ∨ op = 2 ∨ op = 3
  · have e : binaryRequest h = (readFull x >>= fun extra => Rd.lift (slice extra 4 8) >>= fun e =>
        readFull k >>= fun key => readN ((b : Int) - extra.length - k) >>= fun buf =>
        Rd.lift (sliceTo extra 4) >>= fun f =>
        pure { opcode := op, key := key, value := buf, flags := some f, setOpt := some { expiration := getBE e } }) := by
      unfold binaryRequest
      rw [hop, hk, hx, hb']
      rcases o1 with rfl | rfl | rfl <;> rfl
    have o1' : op.toNat = 1 ∨ op.toNat = 2 ∨ op.toNat = 3 := by
      rcases o1 with h | h | h <;> subst h <;> simp
    rw [e, rpanic_full]
    constructor
    · rintro ⟨hm, hp⟩
      have hlen : (r.take x).length = x := by simp; omega
      by_cases hx8 : x < 8
      · exact .storeExtras o1' hx8 hm
      · have hsl : slice (r.take x) 4 8 = .ok (((r.take x).take 8).drop 4) := slice_ok.2 ⟨by omega, by omega, rfl⟩
        rw [rpanic_lift_ok hsl, rpanic_full] at hp
        obtain ⟨hm2, hp⟩ := hp
        rw [readN_rpanic (fun v => ?_) (by omega)] at hp
        · rw [hlen] at hp
          simp at hm2
          exact .storeBody o1' (by omega) (by omega) (by omega)
        · intro i
          rw [show sliceTo (r.take x) 4 = .ok ((r.take x).take 4) from sliceTo_ok.2
            ⟨(r.take x).drop 4, (List.take_append_drop _ _).symm, by simp; omega⟩]
          simp [Rd.bind_apply]
    · intro hc
      cases hc with
      | storeExtras _ hx hm =>
        refine ⟨hm, r.drop x, ?_⟩
        rw [show slice (r.take x) 4 8 = .panic from slice_panic.2 (.inr (by simp; omega))]
        rfl
      | storeBody _ hx hb hm =>
        refine ⟨by omega, ?_⟩
        have hlen : (r.take x).length = x := by simp; omega
        have hsl : slice (r.take x) 4 8 = .ok (((r.take x).take 8).drop 4) := slice_ok.2 ⟨by omega, by omega, rfl⟩
        rw [rpanic_lift_ok hsl, rpanic_full]
        refine ⟨by simp; omega, ?_⟩
        exact ⟨_, n_panic_iff.2 (.inl ⟨.inl (by omega), rfl⟩)⟩
      | arith ho => omega
      | touch ho => omega
  have o1' : ¬ (op.toNat = 1 ∨ op.toNat = 2 ∨ op.toNat = 3) := by
    rintro (h | h | h) <;> exact o1 (by simp [opn, h])
  by_cases o4 : op = 4
  · have e : binaryRequest h = (readFull k >>= fun key => pure { opcode := opDelete, key := key }) := by
      unfold binaryRequest; rw [hop, hk, o4]; rfl
    rw [e]
    refine ⟨fun h => absurd h (key _ _ fun _ => noPanic_pure _), fun h => ?_⟩
    subst o4; cases h <;> simp at *
  by_cases o5 : op = 5 ∨ op = 6
  · have e : binaryRequest h = (readFull x >>= fun extra => Rd.lift (sliceTo extra 8) >>= fun d =>
        Rd.lift (slice extra 16 20) >>= fun e => readFull k >>= fun key =>
        pure { opcode := op, key := key, delta := toSigned 64 (getBE d), setOpt := some { expiration := getBE e } }) := by
      unfold binaryRequest
      rw [hop, hk, hx]
      rcases o5 with rfl | rfl <;> rfl
    have o5' : op.toNat = 5 ∨ op.toNat = 6 := by
      rcases o5 with h | h <;> subst h <;> simp
    rw [e, rpanic_full]
    constructor
    · rintro ⟨hm, hp⟩
      have hlen : (r.take x).length = x := by simp; omega
      by_cases hx20 : x < 20
      · exact .arith o5' hx20 hm
      · have hs1 : sliceTo (r.take x) 8 = .ok ((r.take x).take 8) := sliceTo_ok.2
            ⟨(r.take x).drop 8, (List.take_append_drop _ _).symm, by simp; omega⟩
        have hs2 : slice (r.take x) 16 20 = .ok (((r.take x).take 20).drop 16) := slice_ok.2 ⟨by omega, by omega, rfl⟩
        rw [rpanic_lift_ok hs1, rpanic_lift_ok hs2] at hp
        exact absurd hp (key _ _ fun _ => noPanic_pure _)
    · intro hc
      cases hc with
      | storeExtras ho => omega
      | storeBody ho => omega
      | arith _ hx20 hm =>
        refine ⟨hm, ?_⟩
        have hlen : (r.take x).length = x := by simp; omega
        by_cases hx8 : x < 8
        · refine ⟨r.drop x, ?_⟩
          rw [show sliceTo (r.take x) 8 = .panic from sliceTo_panic.2 (.inr (by omega))]
          rfl
        · have hs1 : sliceTo (r.take x) 8 = .ok ((r.take x).take 8) := sliceTo_ok.2
            ⟨(r.take x).drop 8, (List.take_append_drop _ _).symm, by simp; omega⟩
          rw [rpanic_lift_ok hs1]
          refine ⟨r.drop x, ?_⟩
          rw [show slice (r.take x) 16 20 = .panic from slice_panic.2 (.inr (by omega))]
          rfl
      | touch ho => omega
  have o5' : ¬ (op.toNat = 5 ∨ op.toNat = 6) := by
    rintro (h | h) <;> exact o5 (by simp [opn, h])
  by_cases o28 : op = 28
  · have e : binaryRequest h = (readFull x >>= fun extra => Rd.lift (sliceTo extra 4) >>= fun e =>
        readFull k >>= fun key =>
        pure { opcode := opTouch, key := key, setOpt := some { expiration := getBE e } }) := by
      unfold binaryRequest
      rw [hop, hk, hx, o28]
      rfl
    have o28' : op.toNat = 28 := by subst o28; rfl
    rw [e, rpanic_full]
    constructor
    · rintro ⟨hm, hp⟩
      have hlen : (r.take x).length = x := by simp; omega
      by_cases hx4 : x < 4
      · exact .touch o28' hx4 hm
      · have hs1 : sliceTo (r.take x) 4 = .ok ((r.take x).take 4) := sliceTo_ok.2
            ⟨(r.take x).drop 4, (List.take_append_drop _ _).symm, by simp; omega⟩
        rw [rpanic_lift_ok hs1] at hp
        exact absurd hp (key _ _ fun _ => noPanic_pure _)
    · intro hc
      cases hc with
      | storeExtras ho => omega
      | storeBody ho => omega
      | arith ho => omega
      | touch _ hx4 hm =>
        refine ⟨hm, r.drop x, ?_⟩
        have hlen : (r.take x).length = x := by simp; omega
        rw [show sliceTo (r.take x) 4 = .panic from sliceTo_panic.2 (.inr (by omega))]
        rfl
  have o28' : op.toNat ≠ 28 := fun h => o28 (by simp [opn, h])
  have hc : ¬ CrashBin op.toNat x k b r.length := by
    intro hc
    cases hc with
    | storeExtras ho => exact o1' ho
    | storeBody ho => exact o1' ho
    | arith ho => exact o5' ho
    | touch ho => exact o28' ho
  refine ⟨fun hp => ?_, fun h => absurd h hc⟩
  exfalso
  have e : binaryRequest h = if op = opNoop ∨ op = opVersion ∨ op = opFlush then pure { opcode := op }
      else Rd.fail errInvalidRequest := by
    unfold binaryRequest
    rw [hop]
    show (if op = 0 then _ else _) = _
    rw [if_neg o0]
    show (if op = 13 then _ else _) = _
    rw [if_neg o13]
    show (if op = 1 ∨ op = 2 ∨ op = 3 then _ else _) = _
    rw [if_neg o1]
    show (if op = 4 then _ else _) = _
    rw [if_neg o4]
    show (if op = 5 ∨ op = 6 then _ else _) = _
    rw [if_neg o5]
    show (if op = 28 then _ else _) = _
    rw [if_neg o28]
  rw [e] at hp
  exact (noPanic_ite (noPanic_pure _) (noPanic_fail _)).not r hp

theorem readBinary_panic (i : Bytes) : RPanic readBinary i ↔ CrashReq .binary i := by
  unfold readBinary CrashReq
  rw [rpanic_full]
  constructor
  · rintro ⟨hl, h⟩
    have h24 : (i.take 24).length = 24 := by simp; omega
    by_cases hm : (i.take 24).head? = some 0x80
    · rw [if_neg (by simpa using hm)] at h
      exact ⟨i.take 24, i.drop 24, (List.take_append_drop _ _).symm, h24, hm, (binaryRequest_panic _ _ h24).1 h⟩
    · rw [if_pos hm] at h
      exact absurd h rpanic_fail
  · rintro ⟨h, r, rfl, hl, hm, hc⟩
    have e1 : (h ++ r).take 24 = h := by rw [← hl]; simp
    have e2 : (h ++ r).drop 24 = r := by rw [← hl]; simp
    refine ⟨by simp [hl], ?_⟩
    rw [e1, e2, if_neg (by simpa using hm)]
    exact (binaryRequest_panic h r hl).2 hc

/-- C38: the complete list of streams on which parsing the next request panics. -/
theorem C38_parse (q : Protocol) (i : Bytes) :
    (∃ r, readRequest (some q) i = (.panic, r)) ↔ CrashReq q i := by
  have h : RPanic (readRequest (some q)) i ↔ RPanic (readBody q) i := by
    unfold RPanic readRequest
    rw [Rd.bind_of_ok (show protoOf (some q) i = (.ok q, i) from rfl)]
    rw [Rd.bind_apply]
    cases readBody q i with
    | mk x j => cases x <;> simp
  refine h.trans ?_
  cases q
  · exact readAscii_panic i
  · exact readBinary_panic i

end Props
end Verif
