import Verif.Props.TextReplies
import Verif.Props.MetaReplies
import Verif.Props.BinaryReplies
/-!
C36, C37, C16: the serve loop.
-/

namespace Verif
namespace Spec
open Srv

/-- How a stream of requests ends: the bytes are over or malformed (`closed`), or the parser
panics. -/
structure Parsed where
  reqs : List Request
  tail : End
  deriving DecidableEq

/-- All requests contained in a stream, read one after the other with protocol `q`, up to the
first one that is malformed or incomplete. -/
def parseAll (q : Protocol) (i : Bytes) : Parsed :=
  match hr : readRequest (some q) i with
  | (.ok (_, req), r) => let p := parseAll q r; ⟨req :: p.reqs, p.tail⟩
  | (.err _, _) => ⟨[], .closed⟩
  | (.panic, _) => ⟨[], .crashed⟩
termination_by i.length
decreasing_by exact readRequest_lt hr

/-- What a server should do with a list of requests: call the handler for each in order and
send its reply, stopping for good at the first handler error or unwritable reply. -/
def answerAll {σ : Type} (h : Handler σ) (q : Protocol) : σ → List Request → End → Session σ
  | s, [], e => ⟨[], [], s, e⟩
  | s, req :: reqs, e =>
    match h s req with
    | (.err _, s') => ⟨[req], [], s', .closed⟩
    | (.panic, s') => ⟨[req], [], s', .crashed⟩
    | (.ok res, s') =>
      match writeResponse q req res with
      | .err _ => ⟨[req], [], s', .closed⟩
      | .panic => ⟨[req], [], s', .crashed⟩
      | .ok b =>
        let rest := answerAll h q s' reqs e
        ⟨req :: rest.handled, b ++ rest.out, rest.state, rest.fin⟩

/-- The protocol announced by the first byte of a connection. -/
def protocolOf (b : UInt8) : Protocol := if b = 0x80 then .binary else .ascii

end Spec

namespace Props
open Srv Spec

variable {σ : Type}

theorem readRequest_proto {q : Protocol} {i r : Bytes} {p : Protocol} {req : Request}
    (h : readRequest (some q) i = (.ok (p, req), r)) : p = q := by
  unfold readRequest at h
  rw [Rd.bind_of_ok (show protoOf (some q) i = (.ok q, i) from rfl)] at h
  rw [Rd.bind_apply] at h
  cases hb : readBody q i with
  | mk x j =>
    rw [hb] at h
    cases x with
    | ok a =>
      simp only [Rd.pure_apply, Prod.mk.injEq, Res.ok.injEq] at h
      exact h.1.1.symm
    | err e => simp at h
    | panic => simp at h

theorem readRequest_none (b : UInt8) (i : Bytes) :
    readRequest none (b :: i) = readRequest (some (protocolOf b)) (b :: i) := by
  unfold readRequest
  rw [Rd.bind_of_ok (show protoOf none (b :: i) = (.ok (protocolOf b), b :: i) from rfl),
    Rd.bind_of_ok (show protoOf (some (protocolOf b)) (b :: i) = (.ok (protocolOf b), b :: i) from rfl)]

/-- What the server does with one request it has read and the stream that follows. -/
def serveStep (h : Handler σ) (q : Protocol) (s : σ) (req : Request)
    (next : σ → Session σ) : Session σ :=
  match h s req with
  | (.err _, s') => ⟨[req], [], s', .closed⟩
  | (.panic, s') => ⟨[req], [], s', .crashed⟩
  | (.ok res, s') =>
    match writeResponse q req res with
    | .err _ => ⟨[req], [], s', .closed⟩
    | .panic => ⟨[req], [], s', .crashed⟩
    | .ok b =>
      let rest := next s'
      ⟨req :: rest.handled, b ++ rest.out, rest.state, rest.fin⟩

theorem serve_eq (h : Handler σ) (p : Option Protocol) (s : σ) (i : Bytes) :
    serve h p s i = match readRequest p i with
      | (.err _, _) => ⟨[], [], s, .closed⟩
      | (.panic, _) => ⟨[], [], s, .crashed⟩
      | (.ok (q, req), r) => serveStep h q s req (fun s' => serve h (some q) s' r) := by
  rw [serve]
  unfold serveStep
  cases readRequest p i with
  | mk x r => cases x <;> rfl

theorem parseAll_eq (q : Protocol) (i : Bytes) :
    parseAll q i = match readRequest (some q) i with
      | (.ok (_, req), r) => ⟨req :: (parseAll q r).reqs, (parseAll q r).tail⟩
      | (.err _, _) => ⟨[], .closed⟩
      | (.panic, _) => ⟨[], .crashed⟩ := by
  rw [parseAll]
  cases readRequest (some q) i with
  | mk x r => cases x <;> rfl

theorem answerAll_cons (h : Handler σ) (q : Protocol) (s : σ) (req : Request)
    (reqs : List Request) (e : End) :
    answerAll h q s (req :: reqs) e = serveStep h q s req (fun s' => answerAll h q s' reqs e) := rfl

/-- C37: the protocol is fixed by the first byte: the connection behaves as if that protocol
had been chosen in advance ... -/
theorem C37_first_byte (h : Handler σ) (s : σ) (b : UInt8) (i : Bytes) :
    serve h none s (b :: i) = serve h (some (protocolOf b)) s (b :: i) := by
  rw [serve_eq, serve_eq, readRequest_none]

/-- C37: ... and never changes: every request of a connection is read with the protocol the
connection has. -/
theorem C37_fixed (q : Protocol) (i r : Bytes) (p : Protocol) (req : Request)
    (h : readRequest (some q) i = (.ok (p, req), r)) : p = q := readRequest_proto h

/-- C37: a connection closed before its first byte does nothing. -/
theorem C37_empty (h : Handler σ) (s : σ) : serve h none s [] = ⟨[], [], s, .closed⟩ := by
  rw [serve_eq]; rfl

/-- C36: whatever bytes arrive, the server does exactly what it should do with the requests
they contain: handler calls in stream order, one per request, replies in that order, and
nothing after the first failure. -/
theorem C36_serve (h : Handler σ) (q : Protocol) (s : σ) (i : Bytes) :
    serve h (some q) s i = answerAll h q s (parseAll q i).reqs (parseAll q i).tail := by
  induction hn : i.length using Nat.strongRecOn generalizing i s with
  | ind n ih =>
    rw [serve_eq, parseAll_eq]
    cases hr : readRequest (some q) i with
    | mk x r =>
      cases x with
      | err e => rfl
      | panic => rfl
      | ok pr =>
        obtain ⟨p, req⟩ := pr
        have hp := readRequest_proto hr
        subst hp
        have hlt := readRequest_lt hr
        have := ih r.length (by omega)
        simp only [answerAll_cons]
        congr 1
        funext s'
        exact this s' r rfl

theorem answerAll_prefix (h : Handler σ) (q : Protocol) (s : σ) (reqs : List Request) (e : End) :
    (answerAll h q s reqs e).handled <+: reqs := by
  induction reqs generalizing s with
  | nil => exact List.prefix_refl _
  | cons r rs ih =>
    unfold answerAll
    split
    · exact ⟨rs, rfl⟩
    · exact ⟨rs, rfl⟩
    · split
      · exact ⟨rs, rfl⟩
      · exact ⟨rs, rfl⟩
      · exact List.cons_prefix_cons.2 ⟨rfl, ih _⟩

/-- C36: the handled requests are an initial part of the requests in the stream: none is
skipped, repeated or reordered. -/
theorem C36_in_order (h : Handler σ) (q : Protocol) (s : σ) (i : Bytes) :
    (serve h (some q) s i).handled <+: (parseAll q i).reqs := by
  rw [C36_serve]; exact answerAll_prefix ..

/-- C36: with a handler that always answers with a writable reply, every request in the
stream is handled. -/
theorem C36_complete (h : Handler σ) (q : Protocol) (s : σ) (i : Bytes)
    (hok : ∀ s req, ∃ res s', h s req = (.ok res, s') ∧ ∃ b, writeResponse q req res = .ok b) :
    (serve h (some q) s i).handled = (parseAll q i).reqs
      ∧ (serve h (some q) s i).fin = (parseAll q i).tail := by
  rw [C36_serve]
  generalize (parseAll q i).reqs = reqs
  generalize (parseAll q i).tail = e
  induction reqs generalizing s with
  | nil => exact ⟨rfl, rfl⟩
  | cons r rs ih =>
    obtain ⟨res, s', h1, b, h2⟩ := hok s r
    unfold answerAll
    simp only [h1, h2]
    exact ⟨by rw [(ih s').1], (ih s').2⟩

theorem stable_asciiRequest (s : List Bytes) : Stable (asciiRequest s) := by
  unfold asciiRequest readDelete readDelta readMg readMs readStore
  framing
theorem stable_binaryRequest (h : Bytes) : Stable (binaryRequest h) := by
  unfold binaryRequest; framing
theorem stable_readBody (q : Protocol) : Stable (readBody q) := by
  cases q with
  | ascii => exact stable_readBytes.bind (fun _ => stable_asciiRequest _)
  | binary =>
    exact (stable_readFull 24).bind (fun h => stable_ite (stable_fail _) (stable_binaryRequest h))
theorem stable_readRequest (q : Protocol) : Stable (readRequest (some q)) :=
  (stable_pure q).bind fun _ => (stable_readBody _).bind fun _ => stable_pure _

/-- C36: what the server has handled and sent after the bytes `i` does not depend on the bytes
`t` that follow: it is an initial part of what it does on the whole stream. -/
theorem C36_online (h : Handler σ) (q : Protocol) (s : σ) (i t : Bytes) :
    (serve h (some q) s i).handled <+: (serve h (some q) s (i ++ t)).handled
      ∧ (serve h (some q) s i).out <+: (serve h (some q) s (i ++ t)).out := by
  induction hn : i.length using Nat.strongRecOn generalizing i s with
  | ind n ih =>
    have hst := stable_readRequest q i t
    rw [serve_eq h _ s i]
    cases hr : readRequest (some q) i with
    | mk x r =>
      cases x with
      | err e => exact ⟨List.nil_prefix, List.nil_prefix⟩
      | panic => exact ⟨List.nil_prefix, List.nil_prefix⟩
      | ok pr =>
        obtain ⟨p, req⟩ := pr
        rw [hr] at hst
        have hst := hst (by simp)
        have hp := readRequest_proto hr
        subst hp
        have hlt := readRequest_lt hr
        have := ih r.length (by omega)
        rw [serve_eq h _ s (i ++ t), hst]
        simp only [serveStep]
        cases hh : h s req with
        | mk x s' =>
          cases x with
          | ok res =>
            simp only
            cases hw : writeResponse p req res with
            | ok b =>
              simp only
              exact ⟨List.cons_prefix_cons.2 ⟨rfl, (this s' r rfl).1⟩,
                (List.prefix_append_right_inj b).2 (this s' r rfl).2⟩
            | err e => exact ⟨List.prefix_refl _, List.prefix_refl _⟩
            | panic => exact ⟨List.prefix_refl _, List.prefix_refl _⟩
          | err e => exact ⟨List.prefix_refl _, List.prefix_refl _⟩
          | panic => exact ⟨List.prefix_refl _, List.prefix_refl _⟩

/-! ### C16 -/

/-- One client operation of a session: the call, the request it should reach the handler as,
the handler's responses and the result the call should have. -/
structure Exchange where
  α : Type
  call : Call α
  req : Request
  res : List Response
  result : Res α

/-- A conversation over one connection of protocol `p` with handler `h`, starting in state `s`
and ending in `s'`: each call is one that reaches the server as its request, the handler
answers that request (in the state left by the previous ones) with the responses, and these
are the answer from which the call gets its result. -/
inductive Talk (p : Protocol) (h : Handler σ) : σ → List Exchange → σ → Prop where
  | nil (s : σ) : Talk p h s [] s
  | cons (s s' s'' : σ) (e : Exchange) (es : List Exchange)
      (arrives : Arrives p e.call e.req) (handled : h s e.req = (.ok e.res, s'))
      (answers : Answers p e.req e.res e.call e.result) (rest : Talk p h s' es s'') :
      Talk p h s (e :: es) s''

/-- The calls, executed one after the other on the inbound stream `i`, give their results and
use up `i` exactly. -/
def ClientGets : List Exchange → Bytes → Prop
  | [], i => i = []
  | e :: es, i => ∃ r, e.call.rd i = (e.result, r) ∧ ClientGets es r

/-- The bytes the calls put on the wire. -/
def SendsAll : List Exchange → Bytes → Prop
  | [], w => w = []
  | e :: es, w => ∃ w1 w2, e.call.wire = .ok w1 ∧ SendsAll es w2 ∧ w = w1 ++ w2

theorem talk_serve {p : Protocol} {h : Handler σ} {s s' : σ} {es : List Exchange}
    (ht : Talk p h s es s') (q : Option Protocol) (hq : q = none ∨ q = some p) :
    ∃ w out, SendsAll es w ∧ serve h q s w = ⟨es.map (·.req), out, s', .closed⟩
      ∧ ClientGets es out := by
  induction ht generalizing q with
  | nil s =>
    refine ⟨[], [], rfl, ?_, rfl⟩
    rcases hq with rfl | rfl
    · exact C37_empty h s
    · rw [serve_eq]; cases p <;> rfl
  | cons s s1 s2 e es harr hh hans hrest ih =>
    obtain ⟨w2, out2, hw2, hs2, hc2⟩ := ih (some p) (Or.inr rfl)
    obtain ⟨w1, hw1, hread⟩ := harr
    obtain ⟨b, hb, hrd⟩ := hans
    refine ⟨w1 ++ w2, b ++ out2, ⟨w1, w2, hw1, hw2, rfl⟩, ?_, ⟨out2, hrd out2, hc2⟩⟩
    have hr := hread q hq w2
    rw [serve_eq, hr]
    simp only [serveStep, hh, hb, hs2]
    rfl

/-- C16: for every conversation, however long, the server calls the handler exactly once per
operation with that operation's request and in order, and the bytes it sends back are exactly
what the calls consume, each obtaining its own result. -/
theorem C16_session {p : Protocol} {h : Handler σ} {s s' : σ} {es : List Exchange}
    (ht : Talk p h s es s') :
    ∃ w out, SendsAll es w ∧ serve h none s w = ⟨es.map (·.req), out, s', .closed⟩
      ∧ ClientGets es out := talk_serve ht none (Or.inl rfl)

theorem SendsAll.append_inv {es fs : List Exchange} {w : Bytes} (h : SendsAll (es ++ fs) w) :
    ∃ w1 w2, w = w1 ++ w2 ∧ SendsAll es w1 ∧ SendsAll fs w2 := by
  induction es generalizing w with
  | nil => exact ⟨[], w, rfl, rfl, h⟩
  | cons e es ih =>
    obtain ⟨a, b, ha, hb, rfl⟩ := h
    obtain ⟨w1, w2, rfl, h1, h2⟩ := ih hb
    exact ⟨a ++ w1, w2, by simp, ⟨a, w1, ha, h1, rfl⟩, h2⟩

/-- C16, in lock step: after the server has received only the first operations of the
conversation (`es`), it has already sent exactly the replies these consume. -/
theorem C16_lockstep {p : Protocol} {h : Handler σ} {s s' : σ} {es fs : List Exchange}
    (ht : Talk p h s (es ++ fs) s') :
    ∃ s1 w out, SendsAll es w ∧ serve h none s w = ⟨es.map (·.req), out, s1, .closed⟩
      ∧ ClientGets es out := by
  have : ∃ s1, Talk p h s es s1 := by
    induction es generalizing s with
    | nil => exact ⟨s, .nil s⟩
    | cons e es ih =>
      cases ht with
      | cons _ sm _ _ _ ha hh hans hrest =>
        obtain ⟨s1, h1⟩ := ih hrest
        exact ⟨s1, .cons _ _ _ _ _ ha hh hans h1⟩
  obtain ⟨s1, h1⟩ := this
  obtain ⟨w, out, a, b, c⟩ := C16_session h1
  exact ⟨s1, w, out, a, b, c⟩

end Props
end Verif
