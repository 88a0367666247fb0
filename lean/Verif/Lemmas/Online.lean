import Verif.Mc.Online
import Verif.Spec.Sequential
import Verif.Lemmas.ClientStable
import Verif.Server.Serve
namespace Verif
namespace Mc
open Kv Spec

theorem stable_readLineData (l : Option Line) : Stable (readLineData l) := by
  cases l with
  | none => exact stable_pure _
  | some l => cases l with
    | done c => exact stable_pure _
    | data n f => exact stable_readFull _ |>.bind fun b => by split <;> exact stable_pure _

theorem suffix_readLineData (l : Option Line) : Suffix (readLineData l) := by
  cases l with
  | none => exact suffix_pure _
  | some l => cases l with
    | done c => exact suffix_pure _
    | data n f => exact suffix_readFull _ |>.bind fun b => by split <;> exact suffix_pure _

theorem stable_readCmd : Stable readCmd := stable_readBytes.bind fun _ => stable_readLineData _

theorem step_append {s s' : Store} {i reply r : Bytes} (h : step s i = some (reply, s', r)) (t : Bytes) :
    step s (i ++ t) = some (reply, s', r ++ t) := by
  unfold step at h ⊢
  have hst := stable_readCmd i t
  cases hc : readCmd i with
  | mk res q =>
    rw [hc] at h hst
    cases res with
    | ok c =>
      rw [hst (by simp)]
      cases c with
      | none => simp_all
      | some c => simp_all
    | err e => simp at h
    | panic => simp at h

theorem step_lt {s s' : Store} {i reply r : Bytes} (h : step s i = some (reply, s', r)) : r.length < i.length := by
  unfold step at h
  cases hc : readCmd i with
  | mk res q =>
    rw [hc] at h
    cases res with
    | err e => simp at h
    | panic => simp at h
    | ok c =>
      have hq : r = q := by cases c <;> simp_all
      subst hq
      unfold readCmd at hc
      rw [Rd.bind_apply] at hc
      cases hb : readBytes i with
      | mk res' q' =>
        rw [hb] at hc
        cases res' with
        | err e => simp at hc
        | panic => simp at hc
        | ok l =>
          have h1 : (readLineData (parseLine (splitSp (trimSuffix l crlf))) q').2 = r := by
            simp only at hc; rw [hc]
          have h2 := (suffix_readLineData (parseLine (splitSp (trimSuffix l crlf)))).length_le q'
          rw [h1] at h2
          have h3 := Srv.readBytes_lt hb
          omega

theorem outLoop_fuel : ∀ (n m : Nat) (s : Store) (i : Bytes), i.length ≤ n → i.length ≤ m →
    outLoop n s i = outLoop m s i := by
  intro n
  induction n with
  | zero =>
    intro m s i h1 _
    have : i = [] := List.length_eq_zero_iff.1 (by omega)
    subst this
    cases m with
    | zero => rfl
    | succ m => rfl
  | succ n ih =>
    intro m s i h1 h2
    cases m with
    | zero =>
      have : i = [] := List.length_eq_zero_iff.1 (by omega)
      subst this; rfl
    | succ m =>
      unfold outLoop
      cases hs : step s i with
      | none => rfl
      | some q =>
        obtain ⟨reply, s', r⟩ := q
        have := step_lt hs
        simp only
        rw [ih m s' r (by omega) (by omega)]

theorem output_step {s s' : Store} {i reply r : Bytes} (h : step s i = some (reply, s', r)) :
    output s i = reply ++ output s' r := by
  have := step_lt h
  unfold output
  obtain ⟨n, hn⟩ : ∃ n, i.length = n + 1 := ⟨i.length - 1, by omega⟩
  rw [hn]
  conv => lhs; unfold outLoop
  rw [h]
  simp only
  rw [outLoop_fuel n r.length s' r (by omega) (Nat.le_refl _)]

theorem output_none {s : Store} {i : Bytes} (h : step s i = none) : output s i = [] := by
  unfold output
  cases i.length with
  | zero => rfl
  | succ n => unfold outLoop; rw [h]

theorem output_prefix (s : Store) (x y : Bytes) : output s x <+: output s (x ++ y) := by
  generalize hn : x.length = n
  induction n using Nat.strongRecOn generalizing s x with
  | _ n ih =>
    cases hs : step s x with
    | none => rw [output_none hs]; exact List.nil_prefix
    | some q =>
      obtain ⟨reply, s', r⟩ := q
      rw [output_step hs, output_step (step_append hs y)]
      have := step_lt hs
      exact List.prefix_append_right_inj reply |>.2 (ih r.length (by omega) s' r rfl)

theorem output_online (s : Store) : Online (output s) := ⟨rfl, output_prefix s⟩

theorem output_answerLoop : ∀ (n : Nat) (s s' : Store) (w reply x : Bytes), answerLoop n s w = some (reply, s') →
    output s (w ++ x) = reply ++ output s' x := by
  intro n
  induction n with
  | zero =>
    intro s s' w reply x h
    cases w with
    | nil => simp only [answerLoop, Option.some.injEq, Prod.mk.injEq] at h; obtain ⟨rfl, rfl⟩ := h; rfl
    | cons b w => simp [answerLoop] at h
  | succ n ih =>
    intro s s' w reply x h
    cases w with
    | nil => simp only [answerLoop, Option.some.injEq, Prod.mk.injEq] at h; obtain ⟨rfl, rfl⟩ := h; rfl
    | cons b w =>
      unfold answerLoop at h
      cases hs : step s (b :: w) with
      | none => rw [hs] at h; cases h
      | some q =>
        obtain ⟨rep, s1, r⟩ := q
        rw [hs] at h
        simp only [Option.map_eq_some_iff] at h
        obtain ⟨⟨rep2, s2⟩, h1, h2⟩ := h
        simp only [Prod.mk.injEq] at h2
        obtain ⟨rfl, rfl⟩ := h2
        rw [output_step (step_append hs x), ih s1 s2 r rep2 x h1, List.append_assoc]

theorem output_answer {s s' : Store} {w reply : Bytes} (h : answer s w = some (reply, s')) (x : Bytes) :
    output s (w ++ x) = reply ++ output s' x := output_answerLoop _ s s' w reply x h

/-- Operations in a row on a connection to a server answering online, from the exchanges. -/
theorem oneByOne_session (call : Op → Call Out) (s0 : Store) : ∀ (ops : List Op) (s s' : Store) (sent : Bytes)
    (rs : List (Res Out)), (∀ x, output s0 (sent ++ x) = output s0 sent ++ output s x) →
    session call s (ops.map fun o => (0, o)) = some (rs, s') →
    oneByOne (output s0) sent [] (ops.map call) = rs := by
  intro ops
  induction ops with
  | nil =>
    intro s s' sent rs _ h
    simp only [List.map_nil, session, Option.some.injEq, Prod.mk.injEq] at h
    rw [← h.1]; rfl
  | cons o ops ih =>
    intro s s' sent rs hout h
    rw [List.map_cons] at h ⊢
    unfold session at h
    have htick : s.tick 0 = s := rfl
    rw [htick] at h
    cases he : exchange (call o) s with
    | none => rw [he] at h; cases h
    | some q =>
      obtain ⟨res, s1⟩ := q
      rw [he] at h
      simp only [Option.map_eq_some_iff] at h
      obtain ⟨⟨rs2, s2⟩, h1, h2⟩ := h
      simp only [Prod.mk.injEq] at h2
      obtain ⟨rfl, rfl⟩ := h2
      unfold exchange at he
      cases hw : (call o).wire with
      | err e => rw [hw] at he; cases he
      | panic => rw [hw] at he; cases he
      | ok w =>
        rw [hw] at he
        simp only at he
        cases ha : answer s w with
        | none => rw [ha] at he; cases he
        | some q =>
          obtain ⟨reply, s3⟩ := q
          rw [ha] at he
          simp only at he
          have hrep : replyTo (output s0) sent w = reply := by
            unfold replyTo
            rw [hout w, List.drop_left]
            have := output_answer ha []
            rw [List.append_nil] at this
            rw [this, show output s3 [] = [] from rfl, List.append_nil]
          cases hr : (call o).rd reply with
          | mk res' rest =>
            rw [hr] at he
            cases rest with
            | cons b rest => cases he
            | nil =>
              simp only at he
              split at he
              · cases he
              · simp only [Option.some.injEq, Prod.mk.injEq] at he
                obtain ⟨rfl, rfl⟩ := he
                have hnext : ∀ x, output s0 (sent ++ w ++ x) = output s0 (sent ++ w) ++ output s3 x := by
                  intro x
                  have e1 := output_answer ha x
                  have e2 := output_answer ha []
                  rw [List.append_nil, show output s3 [] = [] from rfl, List.append_nil] at e2
                  rw [List.append_assoc, hout, e1, hout w, e2, List.append_assoc]
                have := ih s3 s2 (sent ++ w) rs2 hnext h1
                unfold oneByOne
                simp only [hw, List.nil_append, hrep, hr, this]

end Mc
end Verif
