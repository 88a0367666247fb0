import Verif.Mc.Session
import Verif.Lemmas.Ascii
import Verif.Lemmas.TextReply
/-! Helper lemmas: the reference memcached reading the clients' requests. -/

namespace Verif
namespace Mc
open Kv Spec

theorem readCmd_words (ws : List Bytes) (rest : Bytes) (hne : ws ≠ []) (h : ∀ w ∈ ws, Plain w) :
    readCmd (joinSp ws ++ 13 :: 10 :: rest) = readLineData (parseLine ws) rest := by
  have h10 : (10 : UInt8) ∉ joinSp ws := by
    intro hm
    rcases mem_joinSp hm with h0 | ⟨k, hk, hk'⟩
    · exact absurd h0 (by decide)
    · exact (h k hk).2 hk'
  have e : joinSp ws ++ 13 :: 10 :: rest = (joinSp ws ++ [13]) ++ 10 :: rest := by simp
  have h' : (10 : UInt8) ∉ joinSp ws ++ [13] := by simp [h10]
  unfold readCmd
  rw [Rd.bind_apply, e, readBytes_line _ _ h']
  have : (joinSp ws ++ [13]) ++ [10] = joinSp ws ++ crlf := by simp [crlf]
  simp only [this, trimSuffix_append]
  rw [splitSp_joinSp ws hne (fun w hw => (h w hw).1)]

/-- `w` is one command `c` (`none`: a line answered with an error), whatever follows. -/
def Sends (w : Bytes) (c : Option Cmd) : Prop :=
  w ≠ [] ∧ ∀ rest, readCmd (w ++ rest) = (.ok c, rest)

/-- Execute a command or refuse a line. -/
def execLine (s : Store) : Option Cmd → Bytes × Store
  | some c => exec s c
  | none => (b!"ERROR\r\n", s)

theorem step_sends {w : Bytes} {c : Option Cmd} (h : Sends w c) (s : Store) (rest : Bytes) :
    step s (w ++ rest) = some ((execLine s c).1, (execLine s c).2, rest) := by
  unfold step
  rw [h.2 rest]
  cases c <;> rfl

theorem answerLoop_sends {w : Bytes} {c : Option Cmd} (h : Sends w c) (n : Nat) (s : Store)
    (rest : Bytes) :
    answerLoop (n + 1) s (w ++ rest)
      = (answerLoop n (execLine s c).2 rest).map fun q => ((execLine s c).1 ++ q.1, q.2) := by
  have hs := step_sends h s rest
  cases hw : w ++ rest with
  | nil => exact absurd (List.append_eq_nil_iff.1 hw).1 h.1
  | cons b i =>
    rw [hw] at hs
    show (match step s (b :: i) with | none => none | some (reply, s', r) => _) = _
    rw [hs]

theorem answerLoop_nil (n : Nat) (s : Store) : answerLoop n s [] = some ([], s) := by
  cases n <;> rfl

theorem answer_sends {w : Bytes} {c : Option Cmd} (h : Sends w c) (s : Store) :
    answer s w = some (execLine s c) := by
  obtain ⟨n, hn⟩ : ∃ n, w.length = n + 1 := by
    cases hw : w with
    | nil => exact absurd hw h.1
    | cons b i => exact ⟨i.length, rfl⟩
  have := answerLoop_sends h n s []
  rw [List.append_nil, answerLoop_nil] at this
  unfold answer
  rw [hn, this]
  simp

/-- A line without data block. -/
theorem sends_line (ws : List Bytes) (c : Option Cmd) (hne : ws ≠ []) (h : ∀ w ∈ ws, Plain w)
    (hp : parseLine ws = c.map .done) : Sends (joinSp ws ++ crlf) c := by
  refine ⟨by simp [crlf], fun rest => ?_⟩
  have := readCmd_words ws rest hne h
  rw [hp] at this
  have e : joinSp ws ++ crlf ++ rest = joinSp ws ++ 13 :: 10 :: rest := by simp [crlf]
  rw [e, this]
  cases c <;> rfl

/-- A line with a data block. -/
theorem sends_data (ws : List Bytes) (f : Bytes → Cmd) (value : Bytes) (hne : ws ≠ [])
    (h : ∀ w ∈ ws, Plain w) (hp : parseLine ws = some (.data value.length f)) :
    Sends (joinSp ws ++ crlf ++ (value ++ crlf)) (some (f value)) := by
  refine ⟨by simp [crlf], fun rest => ?_⟩
  have := readCmd_words ws (value ++ crlf ++ rest) hne h
  rw [hp] at this
  have e : joinSp ws ++ crlf ++ (value ++ crlf) ++ rest
      = joinSp ws ++ 13 :: 10 :: (value ++ crlf ++ rest) := by simp [crlf]
  rw [e, this]
  have hr : readFull (value.length + 2) (value ++ crlf ++ rest) = (.ok (value ++ crlf), rest) :=
    readFull_append' _ (value ++ crlf) rest (by simp [crlf])
  show (readFull (value.length + 2) >>= _) _ = _
  rw [Rd.bind_of_ok hr]
  simp

theorem keyPlain {k : Bytes} (h : Key k) : Plain k := h.1.textKey.plain

theorem exchange_of {c : Call Out} {w : Bytes} {l : Option Cmd} {s : Store} {res : Res Out}
    (hw : c.wire = .ok w) (hs : Sends w l) (hr : c.rd (execLine s l).1 = (res, []))
    (hio : res ≠ .err .io) : exchange c s = some (res, (execLine s l).2) := by
  simp [exchange, hw, answer_sends hs, hr, hio]

end Mc
end Verif
