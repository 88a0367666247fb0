import Verif.Mc.OnlineBin
import Verif.Props.BinHistory
import Verif.Lemmas.Online
namespace Verif
namespace McBin
open Kv Spec
open Mc (binCall)
open Bin (ReqHdr)

theorem stable_readReq : Stable readReq := by
  unfold readReq
  refine stable_readFull _ |>.bind fun h => ?_
  split
  · exact stable_pure _
  · refine stable_readFull _ |>.bind fun b => ?_
    dsimp only
    split <;> exact stable_pure _

theorem readReq_lt {i rest : Bytes} {x : Option Req} (h : readReq i = (.ok x, rest)) : rest.length < i.length := by
  unfold readReq at h
  obtain ⟨b, r', rfl, hb, h2⟩ := (full_iff (by simp)).1 h
  have hs : Suffix (if b.head? ≠ some 0x80 then (pure none : Rd (Option Req))
      else do
        let body ← readFull (getBE ((b.take 12).drop 8))
        let el := (b.getD 4 0).toNat
        let kl := getBE ((b.take 4).drop 2)
        if el + kl ≤ body.length then
          pure (some { opcode := b.getD 1 0, extras := body.take el, key := (body.drop el).take kl,
                       value := body.drop (el + kl), opaq := (b.take 16).drop 12, cas := getBE ((b.take 24).drop 16) })
        else pure none) := by
    split
    · exact suffix_pure _
    · refine suffix_readFull _ |>.bind fun b => ?_
      dsimp only
      split <;> exact suffix_pure _
  have := hs.length_le r'
  rw [h2] at this
  simp only [List.length_append, hb]
  simp only at this
  omega

/-- One request: reply, contents, rest of the stream. -/
def step1 (te : Entry → Bytes) (s : Store) (i : Bytes) : Option (Bytes × Store × Bytes) :=
  match readReq i with
  | (.ok (some r), rest) => some ((exec te s r).1, (exec te s r).2, rest)
  | _ => none

theorem outLoop_succ (te : Entry → Bytes) (n : Nat) (s : Store) (i : Bytes) : outLoop te (n + 1) s i
    = match step1 te s i with
      | some (rep, s', rest) => rep ++ outLoop te n s' rest
      | none => [] := by
  have e : outLoop te (n + 1) s i = match readReq i with
      | (.ok (some r), rest) => (exec te s r).1 ++ outLoop te n (exec te s r).2 rest
      | _ => [] := rfl
  rw [e]
  unfold step1
  cases readReq i with
  | mk res rest =>
    cases res with
    | ok x => cases x <;> rfl
    | err x => rfl
    | panic => rfl

theorem step1_lt {te : Entry → Bytes} {s s' : Store} {i rep rest : Bytes} (h : step1 te s i = some (rep, s', rest)) :
    rest.length < i.length := by
  unfold step1 at h
  split at h
  · rename_i h1
    simp only [Option.some.injEq, Prod.mk.injEq] at h
    rw [← h.2.2]
    exact readReq_lt h1
  · cases h

theorem step1_append {te : Entry → Bytes} {s s' : Store} {i rep rest : Bytes} (h : step1 te s i = some (rep, s', rest))
    (t : Bytes) : step1 te s (i ++ t) = some (rep, s', rest ++ t) := by
  unfold step1 at h ⊢
  split at h
  · rename_i h1
    simp only [Option.some.injEq, Prod.mk.injEq] at h
    obtain ⟨rfl, rfl, rfl⟩ := h
    have := stable_readReq i t
    rw [h1] at this
    rw [this (by simp)]
  · cases h

theorem outLoop_fuel (te : Entry → Bytes) : ∀ (n m : Nat) (s : Store) (i : Bytes), i.length ≤ n → i.length ≤ m →
    outLoop te n s i = outLoop te m s i := by
  have h0 : ∀ n s, outLoop te n s [] = [] := by
    intro n s
    cases n <;> rfl
  intro n
  induction n with
  | zero =>
    intro m s i h1 _
    have : i = [] := List.length_eq_zero_iff.1 (by omega)
    subst this
    rw [h0, h0]
  | succ n ih =>
    intro m s i h1 h2
    cases m with
    | zero =>
      have : i = [] := List.length_eq_zero_iff.1 (by omega)
      subst this
      rw [h0, h0]
    | succ m =>
      rw [outLoop_succ, outLoop_succ]
      cases hs : step1 te s i with
      | none => rfl
      | some q =>
        obtain ⟨reply, s', r⟩ := q
        have := step1_lt hs
        simp only
        rw [ih m s' r (by omega) (by omega)]

theorem output_step {te : Entry → Bytes} {s s' : Store} {i rep r : Bytes} (h : step1 te s i = some (rep, s', r)) :
    output te s i = rep ++ output te s' r := by
  have := step1_lt h
  unfold output
  obtain ⟨n, hn⟩ : ∃ n, i.length = n + 1 := ⟨i.length - 1, by omega⟩
  rw [hn, outLoop_succ, h]
  simp only
  rw [outLoop_fuel te n r.length s' r (by omega) (Nat.le_refl _)]

theorem output_none {te : Entry → Bytes} {s : Store} {i : Bytes} (h : step1 te s i = none) : output te s i = [] := by
  unfold output
  cases i.length with
  | zero => rfl
  | succ n => rw [outLoop_succ, h]

theorem output_prefix (te : Entry → Bytes) (s : Store) (x y : Bytes) : output te s x <+: output te s (x ++ y) := by
  generalize hn : x.length = n
  induction n using Nat.strongRecOn generalizing s x with
  | _ n ih =>
    cases hs : step1 te s x with
    | none => rw [output_none hs]; exact List.nil_prefix
    | some q =>
      obtain ⟨reply, s', r⟩ := q
      rw [output_step hs, output_step (step1_append hs y)]
      have := step1_lt hs
      exact List.prefix_append_right_inj reply |>.2 (ih r.length (by omega) s' r rfl)

theorem output_online (te : Entry → Bytes) (s : Store) : Online (output te s) := ⟨rfl, output_prefix te s⟩

theorem output_answerLoop (te : Entry → Bytes) : ∀ (n : Nat) (s s' : Store) (w reply x : Bytes),
    answerLoop te n s w = some (reply, s') → output te s (w ++ x) = reply ++ output te s' x := by
  intro n
  induction n with
  | zero =>
    intro s s' w reply x h
    cases w with
    | nil => simp only [answerLoop, Option.some.injEq, Prod.mk.injEq] at h; obtain ⟨rfl, rfl⟩ := h; rfl
    | cons b w => simp [answerLoop] at h
  | succ n ih =>
    intro s s' w reply x h
    cases w with
    | nil => simp only [answerLoop, Option.some.injEq, Prod.mk.injEq] at h; obtain ⟨rfl, rfl⟩ := h; rfl
    | cons b w =>
      unfold answerLoop at h
      split at h
      · rename_i r rest hr
        simp only [Option.map_eq_some_iff] at h
        obtain ⟨⟨rep2, s2⟩, h1, h2⟩ := h
        simp only [Prod.mk.injEq] at h2
        obtain ⟨rfl, rfl⟩ := h2
        have hs : step1 te s (b :: w) = some ((exec te s r).1, (exec te s r).2, rest) := by
          unfold step1
          rw [hr]
        rw [output_step (step1_append hs x), ih _ s2 rest rep2 x h1, List.append_assoc]
      · cases h

theorem output_answer {te : Entry → Bytes} {s s' : Store} {w reply : Bytes} (h : answer te s w = some (reply, s')) (x : Bytes) :
    output te s (w ++ x) = reply ++ output te s' x := output_answerLoop te _ s s' w reply x h

/-- An exchange on a connection with nothing unread, taken apart. -/
theorem exchange_parts {te : Entry → Bytes} {c : Call Out} {s s' : Store} {res : Res Out} {left : Bytes}
    (h : exchange te c s [] = some (res, s', left)) :
    ∃ w rep, c.wire = .ok w ∧ answer te s w = some (rep, s') ∧ c.rd rep = (res, left) ∧ res ≠ .err .io := by
  unfold exchange at h
  cases hw : c.wire with
  | err e => rw [hw] at h; cases h
  | panic => rw [hw] at h; cases h
  | ok w =>
    rw [hw] at h
    simp only at h
    cases ha : answer te s w with
    | none => rw [ha] at h; cases h
    | some q =>
      obtain ⟨rep, s1⟩ := q
      rw [ha] at h
      have h' : (if (c.rd rep).1 = .err .io then none else some ((c.rd rep).1, s1, (c.rd rep).2))
          = some (res, s', left) := h
      split at h'
      · cases h'
      · rename_i hne
        simp only [Option.some.injEq, Prod.mk.injEq] at h'
        obtain ⟨rfl, rfl, rfl⟩ := h'
        exact ⟨w, rep, rfl, ha, rfl, hne⟩

theorem tidy_left {te : Entry → Bytes} {op : Op} (h : Tidy op) (s : Store) : leftOver te s op = [] := by
  cases op with
  | set i =>
    have h0 : i.cas = 0 := h
    simp [leftOver, binMode, h0, Store.store]
  | add i => exact h.elim
  | touch k e => exact h.elim
  | _ => rfl

/-- Operations in a row on a connection to a binary server answering online. -/
theorem oneByOne_binary (te : Entry → Bytes) (hte : ∀ e, (te e).length < 256) (s0 : Store) : ∀ (us : List BinUse) (s : Store)
    (sent : Bytes), (∀ x, output te s0 (sent ++ x) = output te s0 sent ++ output te s x) → GoodStore s →
    (∀ u ∈ us, u.Ok) → s.nextCas + us.length < 2 ^ 63 →
    oneByOne (output te s0) sent [] (us.map (·.call)) = (runApi binApi s (us.map fun u => (0, u.op))).1 := by
  intro us
  induction us with
  | nil => intro s sent _ _ _ _; rfl
  | cons u us ih =>
    intro s sent hout hs hok hc
    have hu := hok u (by simp)
    simp only [List.length_cons] at hc
    have hcall := Props.C52_binary_call te hte u.h1 u.h2 u.op hu.args s hs hu.token
    rw [tidy_left hu.tidy] at hcall
    obtain ⟨w, rep, hw, ha, hr, hne⟩ := exchange_parts hcall
    have hn := Props.binApi_next u.op s hu.args hs (by omega)
    have e2 := output_answer ha []
    rw [List.append_nil, show output te (binApi s u.op).2 [] = [] from rfl, List.append_nil] at e2
    have hrep : replyTo (output te s0) sent w = rep := by
      unfold replyTo
      rw [hout w, List.drop_left, e2]
    have hnext : ∀ x, output te s0 (sent ++ w ++ x) = output te s0 (sent ++ w) ++ output te (binApi s u.op).2 x := by
      intro x
      rw [List.append_assoc, hout, output_answer ha x, hout w, e2, List.append_assoc]
    have := ih (binApi s u.op).2 (sent ++ w) hnext hn.1 (fun v hv => hok v (by simp [hv]))
      (by have := hn.2; omega)
    rw [List.map_cons]
    unfold oneByOne
    have hw' : u.call.wire = .ok w := hw
    have hr' : u.call.rd rep = ((binApi s u.op).1, []) := hr
    simp only [hw', List.nil_append, hrep, hr', this]
    rfl

end McBin
end Verif
