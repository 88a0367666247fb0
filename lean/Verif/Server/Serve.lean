import Verif.Server.Read
import Verif.Server.Write
import Verif.Go.Framing
/-! The serve loop of server/server.go:475-515. -/

namespace Verif
namespace Srv

theorem suffix_asciiRequest (s : List Bytes) : Suffix (asciiRequest s) := by
  unfold asciiRequest readDelete readDelta readMg readMs readStore
  framing
theorem suffix_binaryRequest (h : Bytes) : Suffix (binaryRequest h) := by
  unfold binaryRequest; framing
theorem suffix_readAscii : Suffix readAscii :=
  suffix_readBytes.bind (fun _ => suffix_asciiRequest _)
theorem suffix_readBinary : Suffix readBinary := by
  unfold readBinary
  apply Suffix.bind (suffix_readFull 24)
  intro h
  exact suffix_ite (suffix_fail _) (suffix_binaryRequest h)

theorem readBytes_lt {i r l : Bytes} (h : readBytes i = (.ok l, r)) : r.length < i.length := by
  unfold readBytes at h
  cases hs : splitLine i with
  | none => simp [hs] at h
  | some q =>
    obtain ⟨l', r'⟩ := q
    simp only [hs, Prod.mk.injEq, Res.ok.injEq] at h
    obtain ⟨rfl, rfl⟩ := h
    obtain ⟨rfl, p, rfl, _⟩ := splitLine_some hs
    simp; omega

theorem readAscii_lt {i r : Bytes} {q : Request} (h : readAscii i = (.ok q, r)) :
    r.length < i.length := by
  unfold readAscii at h
  rw [Rd.bind_apply] at h
  cases hb : readBytes i with
  | mk x j =>
    rw [hb] at h
    cases x with
    | ok l =>
      have h1 := readBytes_lt hb
      have h2 := (suffix_asciiRequest (splitSp (trimSuffix l crlf))).length_le j
      simp only at h
      rw [h] at h2
      simp at h2; omega
    | err e => simp at h
    | panic => simp at h

theorem readBinary_lt {i r : Bytes} {q : Request} (h : readBinary i = (.ok q, r)) :
    r.length < i.length := by
  unfold readBinary at h
  rw [Rd.bind_apply] at h
  cases hb : readFull 24 i with
  | mk x j =>
    rw [hb] at h
    cases x with
    | ok l =>
      have h1 : j.length < i.length := by
        unfold readFull at hb
        split at hb
        · simp only [Prod.mk.injEq] at hb
          obtain ⟨_, rfl⟩ := hb
          simp; omega
        · simp at hb
      simp only [Rd.ite_apply'] at h
      split at h
      · simp at h
      · have h2 := (suffix_binaryRequest l).length_le j
        rw [h] at h2
        simp at h2; omega
    | err e => simp at h
    | panic => simp at h

/-- Every request read makes the remaining stream shorter. -/
theorem readRequest_lt {p : Option Protocol} {i r : Bytes} {q : Protocol × Request}
    (h : readRequest p i = (.ok q, r)) : r.length < i.length := by
  unfold readRequest at h
  rw [Rd.bind_apply] at h
  have key : ∀ (x : Protocol) (j : Bytes), j.length ≤ i.length →
      (readBody x >>= fun req =>
        (pure (x, req) : Rd (Protocol × Request))) j = (.ok q, r) → r.length < i.length := by
    intro x j hj h
    rw [Rd.bind_apply] at h
    cases x with
    | ascii =>
      cases hr : readAscii j with
      | mk y k =>
        simp only [readBody, hr] at h
        cases y with
        | ok a => simp at h; obtain ⟨_, rfl⟩ := h; have := readAscii_lt hr; omega
        | err e => simp at h
        | panic => simp at h
    | binary =>
      cases hr : readBinary j with
      | mk y k =>
        simp only [readBody, hr] at h
        cases y with
        | ok a => simp at h; obtain ⟨_, rfl⟩ := h; have := readBinary_lt hr; omega
        | err e => simp at h
        | panic => simp at h
  cases p with
  | some x => exact key x i (Nat.le_refl _) h
  | none =>
    cases i with
    | nil => simp [protoOf, detect] at h
    | cons b i => exact key _ (b :: i) (Nat.le_refl _) h

/-- `Handler.ServeRequest` (server/server.go:398-400) of a handler with state `σ`. -/
abbrev Handler (σ : Type) := σ → Request → Res (List Response) × σ

/-- How a connection's goroutine ended: the loop was left and the connection closed
(`break` at 497/501), or a panic propagated (which takes the process down). (server/server.go:493-505.) -/
inductive End where
  | closed
  | crashed
  deriving DecidableEq, Repr

/-- Everything observable of one connection: the requests passed to the handler, the bytes
sent back, the final handler state and how it ended. -/
structure Session (σ : Type) where
  handled : List Request
  out : Bytes
  state : σ
  fin : End
  deriving DecidableEq, Repr

/-- `serve` and `serveRequest`, server/server.go:493-515, on the complete stream `i` the
client sends. -/
def serve {σ : Type} (h : Handler σ) (p : Option Protocol) (s : σ) (i : Bytes) : Session σ :=
  match hr : readRequest p i with
  | (.err _, _) => ⟨[], [], s, .closed⟩
  | (.panic, _) => ⟨[], [], s, .crashed⟩
  | (.ok (q, req), r) =>
    match h s req with
    | (.err _, s') => ⟨[req], [], s', .closed⟩
    | (.panic, s') => ⟨[req], [], s', .crashed⟩
    | (.ok res, s') =>
      match writeResponse q req res with
      | .err _ => ⟨[req], [], s', .closed⟩
      | .panic => ⟨[req], [], s', .crashed⟩
      | .ok b =>
        let rest := serve h (some q) s' r
        ⟨req :: rest.handled, b ++ rest.out, rest.state, rest.fin⟩
termination_by i.length
decreasing_by exact readRequest_lt hr

end Srv
end Verif
