import Verif.Client.Life
import Verif.Lemmas.ClientStable
/-! C32 and C33: Close and Reconnect, for all histories of calls. -/

namespace Verif
namespace Props
open Spec Life

/-- A client reached by some history of calls from a new one. -/
def Reached (cl : Client) : Prop := ∃ kind timeout evs, cl = (run (new kind timeout) evs).2

/-- The call is no Reconnect. -/
def NoReconnect : Ev → Prop
  | .reconnect _ => False
  | _ => True

/-- The call is no Close. -/
def NoClose : Ev → Prop
  | .close => False
  | _ => True

/-- The call is an operation. -/
def IsOp : Ev → Prop
  | .op _ _ => True
  | _ => False

/-- The operation gets as far as writing its request (an operation whose item cannot be encoded panics
whatever the state of the connection, C51). -/
def Encodes : Ev → Prop
  | .op c _ => ∃ w, c.wire = .ok w
  | _ => True

/-- All connections ever dialled. -/
def conns (cl : Client) : List Net := cl.old ++ [cl.net]

/-- What the peers received, connection by connection. -/
def received (cl : Client) : List Bytes := (conns cl).map (·.sent)

/-- The call returned an error. -/
def Fails (r : Res Out) : Prop := ∃ e, r = .err e

/-! ### Reached clients -/

structure Alive (cl : Client) : Prop where
  old : ∀ n ∈ cl.old, n.isOpen = false
  other : cl.kind ≠ .text → cl.raw = true ∧ cl.closeCh = true
  nil : cl.raw = false → cl.closeCh = false ∧ cl.net.isOpen = false

theorem talk_open (n : Net) (w : Bytes) (rd : Rd Out) (f : Fate) : (talk n w rd f).2.isOpen = n.isOpen := by
  unfold talk
  split
  · rfl
  · cases f <;> rfl

theorem op_fields (cl : Client) (c : Call Out) (f : Fate) :
    (op cl c f).2.kind = cl.kind ∧ (op cl c f).2.timeout = cl.timeout ∧ (op cl c f).2.raw = cl.raw
      ∧ (op cl c f).2.closeCh = cl.closeCh ∧ (op cl c f).2.old = cl.old
      ∧ (op cl c f).2.net.isOpen = cl.net.isOpen := by
  unfold op
  split
  · simp
  split
  · simp
  cases c.wire with
  | err e => simp
  | panic => simp
  | ok w => simp [talk_open]

theorem close_text {cl : Client} (hk : cl.kind = .text) (hc : cl.closeCh = true) (hr : cl.raw = true) :
    close cl = (closeNet cl.net, { cl with net := cl.net.shut, raw := false, closeCh := false }) := by
  simp [close, hk, hc, hr]

theorem close_text_again {cl : Client} (hk : cl.kind = .text) (hc : cl.closeCh = false) :
    close cl = (.err errAlready, cl) := by
  simp [close, hk, hc]

theorem close_text_nil {cl : Client} (hk : cl.kind = .text) (hc : cl.closeCh = true) (hr : cl.raw = false) :
    close cl = (.panic, cl) := by
  simp [close, hk, hc, hr]

theorem close_other {cl : Client} (hk : cl.kind ≠ .text) (hr : cl.raw = true) :
    close cl = (closeNet cl.net, { cl with net := cl.net.shut }) := by
  unfold close
  cases h : cl.kind with
  | text => exact absurd h hk
  | metap => simp [hr]
  | binary => simp [hr]

theorem close_other_nil {cl : Client} (hk : cl.kind ≠ .text) (hr : cl.raw = false) :
    close cl = (.panic, cl) := by
  unfold close
  cases h : cl.kind with
  | text => exact absurd h hk
  | metap => simp [hr]
  | binary => simp [hr]

theorem reconnect_kind (cl : Client) (d : Bool) : (reconnect cl d).2.kind = cl.kind := by
  unfold reconnect redial
  split
  · cases d <;> rfl
  · split
    · cases d <;> rfl
    · rfl

theorem Alive.step {cl : Client} (h : Alive cl) (e : Ev) : Alive (step cl e).2 := by
  obtain ⟨h1, h2, h3⟩ := h
  cases e with
  | op c f =>
    obtain ⟨a, _, b, d, o, n⟩ := op_fields cl c f
    exact ⟨fun x hx => h1 x (o ▸ hx), fun hk => by rw [show (Life.step cl (.op c f)).2 = (op cl c f).2 from rfl] at *; rw [b, d]; exact h2 (a ▸ hk),
      fun hr => by rw [show (Life.step cl (.op c f)).2 = (op cl c f).2 from rfl] at *; rw [d, n]; exact h3 (b ▸ hr)⟩
  | close =>
    simp only [Life.step]
    by_cases hk : cl.kind = .text
    · by_cases hc : cl.closeCh = true
      · by_cases hr : cl.raw = true
        · rw [close_text hk hc hr]
          exact ⟨h1, fun hne => absurd hk hne, fun _ => ⟨rfl, rfl⟩⟩
        · rw [close_text_nil hk hc (by simpa using hr)]
          exact ⟨h1, h2, h3⟩
      · rw [close_text_again hk (by simpa using hc)]
        exact ⟨h1, h2, h3⟩
    · have hr := (h2 hk).1
      rw [close_other hk hr]
      exact ⟨h1, h2, fun hf => by rw [hr] at hf; simp at hf⟩
  | reconnect d =>
    simp only [Life.step]
    unfold reconnect redial
    split
    · rename_i hr
      cases d with
      | false => exact ⟨h1, h2, h3⟩
      | true =>
        refine ⟨?_, fun hk => ⟨rfl, (h2 hk).2⟩, fun hf => by simp at hf⟩
        intro x hx
        simp only [if_true, List.mem_append, List.mem_singleton] at hx
        rcases hx with hx | rfl
        · exact h1 x hx
        · exact (h3 hr).2
    · rename_i hr
      split
      · cases d with
        | false => exact ⟨h1, h2, fun hf => absurd hf hr⟩
        | true =>
          refine ⟨?_, fun hk => ⟨rfl, (h2 hk).2⟩, fun hf => by simp at hf⟩
          intro x hx
          simp only [if_true, List.mem_append, List.mem_singleton] at hx
          rcases hx with hx | rfl
          · exact h1 x hx
          · rfl
      · exact ⟨h1, h2, fun hf => absurd hf hr⟩

theorem Alive.run {cl : Client} (h : Alive cl) (evs : List Ev) : Alive (run cl evs).2 := by
  induction evs generalizing cl with
  | nil => exact h
  | cons e evs ih => exact ih (h.step e)

theorem Reached.alive {cl : Client} (h : Reached cl) : Alive cl := by
  obtain ⟨kind, timeout, evs, rfl⟩ := h
  refine Alive.run ⟨?_, ?_, ?_⟩ evs
  · simp [new]
  · intro _; exact ⟨rfl, rfl⟩
  · simp [new]

/-! ### C32 -/

/-- What the calls return after Close. -/
def afterClose : Ev → Res Out
  | .op _ _ => .err (.msg b!"memcached: closed")
  | .close => .err (.msg b!"memcached: already closed")
  | .reconnect _ => .ok .done

theorem closeNet_ok {n : Net} {o : Out} (h : closeNet n = .ok o) : n.isOpen = true := by
  unfold closeNet at h
  split at h
  · assumption
  · simp at h

/-- C32: a Close of a text connection that returns nil has closed the connection, every one ever
dialled is closed, and until a Reconnect every operation returns "memcached: closed", every Close
"memcached: already closed", and nothing is sent or changed. -/
theorem C32_text (cl : Client) (hr : Reached cl) (hk : cl.kind = .text) (hc : (close cl).1 = .ok .done) :
    (∀ n ∈ conns (close cl).2, n.isOpen = false)
      ∧ ∀ evs : List Ev, (∀ e ∈ evs, NoReconnect e) →
          run (close cl).2 evs = (evs.map afterClose, (close cl).2) := by
  have ha := hr.alive
  have hcl : cl.closeCh = true := by
    by_cases h : cl.closeCh = true
    · exact h
    · simp [close, hk, h] at hc
  have hraw : cl.raw = true := by
    by_cases h : cl.raw = true
    · exact h
    · have h' : cl.raw = false := by simpa using h
      rw [(ha.nil h').1] at hcl
      simp at hcl
  rw [close_text hk hcl hraw] at hc ⊢
  refine ⟨?_, ?_⟩
  · intro n hn
    simp only [conns, List.mem_append, List.mem_singleton] at hn
    rcases hn with hn | rfl
    · exact ha.old n hn
    · rfl
  · intro evs
    induction evs with
    | nil => intro _; rfl
    | cons e evs ih =>
      intro he
      have hs : step { cl with net := cl.net.shut, raw := false, closeCh := false } e
          = (afterClose e, { cl with net := cl.net.shut, raw := false, closeCh := false }) := by
        cases e with
        | op c f => simp [step, op, hk, afterClose, errClosed]
        | close => simp [step, close, hk, afterClose, errAlready]
        | reconnect d => exact absurd (he (.reconnect d) (by simp)) (by simp [NoReconnect])
      simp only [run, hs, List.map_cons]
      rw [ih (fun x hx => he x (by simp [hx]))]

/-- A connection that nothing can be done with any more. -/
structure Dead (cl : Client) : Prop where
  raw : cl.raw = true
  shut : cl.net.isOpen = false
  final : cl.kind = .text → cl.closeCh = false

theorem dead_step {cl : Client} (h : Dead cl) (e : Ev) (he : Encodes e) :
    Fails (step cl e).1 ∧ Dead (step cl e).2 ∧ received (step cl e).2 = received cl := by
  obtain ⟨hr, hs, hf⟩ := h
  cases e with
  | op c f =>
    obtain ⟨w, hw⟩ := he
    have ht : talk cl.net w c.rd f = (.err .io, { cl.net with werr := true }) := by simp [talk, hs]
    have : op cl c f = (.err .io, { cl with net := { cl.net with werr := true } }) := by
      simp [op, hr, hw, ht]
    simp only [step, this]
    exact ⟨⟨_, rfl⟩, ⟨hr, hs, hf⟩, by simp [received, conns]⟩
  | close =>
    simp only [step]
    by_cases hk : cl.kind = .text
    · rw [close_text_again hk (hf hk)]
      exact ⟨⟨_, rfl⟩, ⟨hr, hs, hf⟩, rfl⟩
    · rw [close_other hk hr]
      exact ⟨⟨.io, by simp [closeNet, hs]⟩, ⟨hr, rfl, fun h => absurd h hk⟩, by simp [received, conns, Net.shut]⟩
  | reconnect d =>
    have : reconnect cl d = (.err .io, { cl with net := cl.net.shut }) := by
      simp [reconnect, hr, closeNet, hs]
    simp only [step, this]
    exact ⟨⟨_, rfl⟩, ⟨hr, rfl, hf⟩, by simp [received, conns, Net.shut]⟩

theorem dead_run {cl : Client} (h : Dead cl) (evs : List Ev) (he : ∀ e ∈ evs, Encodes e) :
    (∀ r ∈ (run cl evs).1, Fails r) ∧ received (run cl evs).2 = received cl := by
  induction evs generalizing cl with
  | nil => simp [run]
  | cons e evs ih =>
    obtain ⟨h1, h2, h3⟩ := dead_step h e (he e (by simp))
    obtain ⟨i1, i2⟩ := ih h2 (fun x hx => he x (by simp [hx]))
    refine ⟨?_, ?_⟩
    · intro r hr
      simp only [run, List.mem_cons] at hr
      rcases hr with rfl | hr
      · exact h1
      · exact i1 r hr
    · simp only [run]; rw [i2, h3]

/-- C32 and C33, meta and binary connections: after a Close every later call fails — operations, Close,
and also every Reconnect, whatever the network does — and nothing is sent. -/
theorem C32_close_is_final (cl : Client) (hr : Reached cl) (hk : cl.kind ≠ .text) (evs : List Ev)
    (he : ∀ e ∈ evs, Encodes e) :
    (∀ n ∈ conns (close cl).2, n.isOpen = false)
      ∧ (∀ r ∈ (run (close cl).2 evs).1, Fails r) ∧ received (run (close cl).2 evs).2 = received cl := by
  have ha := hr.alive
  have hraw := (ha.other hk).1
  have hd : Dead (close cl).2 := by
    rw [close_other hk hraw]
    exact ⟨hraw, rfl, fun h => absurd h hk⟩
  have hrec : received (close cl).2 = received cl := by
    rw [close_other hk hraw]; simp [received, conns, Net.shut]
  refine ⟨?_, (dead_run hd evs he).1, (dead_run hd evs he).2.trans hrec⟩
  rw [close_other hk hraw]
  intro n hn
  simp only [conns, List.mem_append, List.mem_singleton] at hn
  rcases hn with hn | rfl
  · exact ha.old n hn
  · rfl

/-! ### C33 -/

theorem reconnect_ok {cl : Client} {d : Bool} (h : (reconnect cl d).1 = .ok .done) :
    ∃ n : Net, n.sent = cl.net.sent ∧ (reconnect cl d).2 = { cl with raw := true, net := {}, old := cl.old ++ [n] } := by
  unfold reconnect redial at h ⊢
  split at h
  · rename_i hr
    cases d with
    | false => simp at h
    | true => exact ⟨cl.net, rfl, by simp [hr]⟩
  · rename_i hr
    cases hn : closeNet cl.net with
    | ok o =>
      rw [hn] at h
      cases d with
      | false => simp at h
      | true => exact ⟨cl.net.shut, rfl, by simp [hr]⟩
    | err e => rw [hn] at h; simp at h
    | panic => rw [hn] at h; simp at h

/-- Two clients that differ only in what was before. -/
structure Same (a b : Client) : Prop where
  kind : a.kind = b.kind
  timeout : a.timeout = b.timeout
  raw : a.raw = true ∧ b.raw = true
  net : a.net = b.net

theorem same_op {a b : Client} (h : Same a b) (c : Call Out) (f : Fate) :
    (op a c f).1 = (op b c f).1 ∧ Same (op a c f).2 (op b c f).2 ∧ (op a c f).2.old = a.old := by
  obtain ⟨h1, h2, ⟨h3, h4⟩, h5⟩ := h
  unfold op
  rw [if_neg (by rw [h3]; simp), if_neg (by rw [h3]; simp), if_neg (by rw [h4]; simp), if_neg (by rw [h4]; simp)]
  cases c.wire with
  | err e => exact ⟨rfl, ⟨h1, h2, ⟨h3, h4⟩, h5⟩, rfl⟩
  | panic => exact ⟨rfl, ⟨h1, h2, ⟨h3, h4⟩, h5⟩, rfl⟩
  | ok w =>
    dsimp only
    rw [h5]
    exact ⟨rfl, ⟨h1, h2, ⟨h3, h4⟩, rfl⟩, rfl⟩

theorem same_run {a b : Client} (h : Same a b) (evs : List Ev) (he : ∀ e ∈ evs, IsOp e) :
    (run a evs).1 = (run b evs).1 ∧ Same (run a evs).2 (run b evs).2 ∧ (run a evs).2.old = a.old := by
  induction evs generalizing a b with
  | nil => exact ⟨rfl, h, rfl⟩
  | cons e evs ih =>
    cases e with
    | op c f =>
      obtain ⟨h1, h2, h3⟩ := same_op h c f
      obtain ⟨i1, i2, i3⟩ := ih h2 (fun x hx => he x (by simp [hx]))
      simp only [run, step]
      exact ⟨by rw [h1, i1], i2, i3.trans h3⟩
    | close => exact absurd (he .close (by simp)) (by simp [IsOp])
    | reconnect d => exact absurd (he (.reconnect d) (by simp)) (by simp [IsOp])

/-- C33: after a Reconnect that returned nil, operations behave on the new connection exactly as on the
connection of a newly created client: same results, same bytes sent on it, whatever was sent or left
unread on the connections before; and nothing more is sent on those. -/
theorem C33_fresh (cl : Client) (d : Bool) (h : (reconnect cl d).1 = .ok .done) (evs : List Ev)
    (he : ∀ e ∈ evs, IsOp e) :
    (run (reconnect cl d).2 evs).1 = (run (new cl.kind cl.timeout) evs).1
      ∧ received (run (reconnect cl d).2 evs).2
          = received cl ++ received (run (new cl.kind cl.timeout) evs).2 := by
  obtain ⟨n, hn, hq⟩ := reconnect_ok h
  rw [hq]
  have hs : Same { cl with raw := true, net := {}, old := cl.old ++ [n] } (new cl.kind cl.timeout) :=
    ⟨rfl, rfl, ⟨rfl, rfl⟩, rfl⟩
  obtain ⟨h1, h2, h3⟩ := same_run hs evs he
  obtain ⟨_, h2', h3'⟩ := same_run (a := new cl.kind cl.timeout) (b := new cl.kind cl.timeout) ⟨rfl, rfl, ⟨rfl, rfl⟩, rfl⟩ evs he
  refine ⟨h1, ?_⟩
  simp only [received, conns, h3, h3', h2.net]
  simp [new, hn]

/-- C33: a Reconnect whose dial succeeds returns nil on every client that was never closed and on which no
Reconnect failed to dial, whatever became of the operations on it. -/
theorem C33_reconnects (kind : Kind) (timeout : Bool) (evs : List Ev)
    (he : ∀ e ∈ evs, IsOp e ∨ e = .reconnect true) :
    (reconnect (run (new kind timeout) evs).2 true).1 = .ok .done := by
  have key : ∀ (evs : List Ev) (cl : Client), cl.raw = true → cl.net.isOpen = true →
      (∀ e ∈ evs, IsOp e ∨ e = .reconnect true) →
      (run cl evs).2.raw = true ∧ (run cl evs).2.net.isOpen = true := by
    intro evs
    induction evs with
    | nil => intro cl h1 h2 _; exact ⟨h1, h2⟩
    | cons e evs ih =>
      intro cl h1 h2 he
      have hrest : ∀ x ∈ evs, IsOp x ∨ x = .reconnect true := fun x hx => he x (by simp [hx])
      rcases he e (by simp) with ho | rfl
      · cases e with
        | op c f =>
          obtain ⟨_, _, b, _, _, n⟩ := op_fields cl c f
          exact ih _ (b.trans h1) (n.trans h2) hrest
        | close => simp [IsOp] at ho
        | reconnect d => simp [IsOp] at ho
      · refine ih _ ?_ ?_ hrest
        · simp [step, reconnect, h1, closeNet, h2, redial]
        · simp [step, reconnect, h1, closeNet, h2, redial]
  obtain ⟨h1, h2⟩ := key evs (new kind timeout) rfl rfl he
  simp [reconnect, h1, closeNet, h2, redial]

/-- C33, meta and binary connections: once the dial of a Reconnect failed, no call ever succeeds again, in
particular no Reconnect, even when the server is back. -/
theorem C33_failed_dial_is_final (cl : Client) (hr : Reached cl) (hk : cl.kind ≠ .text) (evs : List Ev)
    (he : ∀ e ∈ evs, Encodes e) :
    (∀ r ∈ (run (reconnect cl false).2 evs).1, Fails r)
      ∧ received (run (reconnect cl false).2 evs).2 = received cl := by
  have hraw := (hr.alive.other hk).1
  have hq : (reconnect cl false).2 = { cl with net := cl.net.shut } := by
    unfold reconnect redial
    simp only [hraw, Bool.true_eq_false, if_false]
    split <;> rfl
  have hd : Dead (reconnect cl false).2 := by
    rw [hq]; exact ⟨hraw, rfl, fun h => absurd h hk⟩
  have hrec : received (reconnect cl false).2 = received cl := by
    rw [hq]; simp [received, conns, Net.shut]
  exact ⟨(dead_run hd evs he).1, (dead_run hd evs he).2.trans hrec⟩

/-- A text client whose `raw` connection was closed by a Reconnect that then failed to dial. -/
structure HalfClosed (cl : Client) : Prop where
  raw : cl.raw = true
  shut : cl.net.isOpen = false

theorem half_step {cl : Client} (h : HalfClosed cl) (e : Ev) (he : Encodes e) (hn : NoClose e) :
    Fails (step cl e).1 ∧ HalfClosed (step cl e).2 ∧ received (step cl e).2 = received cl
      ∧ (step cl e).2.kind = cl.kind ∧ (step cl e).2.closeCh = cl.closeCh := by
  obtain ⟨hr, hs⟩ := h
  cases e with
  | op c f =>
    obtain ⟨w, hw⟩ := he
    have ht : talk cl.net w c.rd f = (.err .io, { cl.net with werr := true }) := by simp [talk, hs]
    have : op cl c f = (.err .io, { cl with net := { cl.net with werr := true } }) := by
      simp [op, hr, hw, ht]
    simp only [step, this]
    exact ⟨⟨_, rfl⟩, ⟨hr, hs⟩, by simp [received, conns], by simp, by simp⟩
  | close => exact absurd hn (by simp [NoClose])
  | reconnect d =>
    have : reconnect cl d = (.err .io, { cl with net := cl.net.shut }) := by
      simp [reconnect, hr, closeNet, hs]
    simp only [step, this]
    exact ⟨⟨_, rfl⟩, ⟨hr, rfl⟩, by simp [received, conns, Net.shut], by simp, by simp⟩

theorem half_run {cl : Client} (h : HalfClosed cl) (evs : List Ev) (he : ∀ e ∈ evs, Encodes e ∧ NoClose e) :
    (∀ r ∈ (run cl evs).1, Fails r) ∧ HalfClosed (run cl evs).2 ∧ received (run cl evs).2 = received cl
      ∧ (run cl evs).2.kind = cl.kind ∧ (run cl evs).2.closeCh = cl.closeCh := by
  induction evs generalizing cl with
  | nil => simp [run, h]
  | cons e evs ih =>
    obtain ⟨h1, h2, h3, h4, h5⟩ := half_step h e (he e (by simp)).1 (he e (by simp)).2
    obtain ⟨i1, i2, i3, i4, i5⟩ := ih h2 (fun x hx => he x (by simp [hx]))
    simp only [run]
    refine ⟨?_, i2, i3.trans h3, i4.trans h4, i5.trans h5⟩
    intro r hr
    simp only [List.mem_cons] at hr
    rcases hr with rfl | hr
    · exact h1
    · exact i1 r hr

/-- C33, text connections: after a Reconnect whose dial failed every operation and every Reconnect fails —
until Close is called.  That Close returns an error itself, but then Reconnect works again. -/
theorem C33_text_failed_dial (cl : Client) (hr : Reached cl) (hk : cl.kind = .text) (ho : cl.closeCh = true) (evs : List Ev)
    (he : ∀ e ∈ evs, Encodes e ∧ NoClose e) :
    (∀ r ∈ (run (reconnect cl false).2 evs).1, Fails r)
      ∧ received (run (reconnect cl false).2 evs).2 = received cl
      ∧ (close (run (reconnect cl false).2 evs).2).1 = .err .io
      ∧ (reconnect (close (run (reconnect cl false).2 evs).2).2 true).1 = .ok .done := by
  have hraw : cl.raw = true := by
    by_cases h : cl.raw = true
    · exact h
    · have h' : cl.raw = false := by simpa using h
      rw [(hr.alive.nil h').1] at ho
      simp at ho
  have hq : (reconnect cl false).2 = { cl with net := cl.net.shut } := by
    unfold reconnect redial
    simp only [hraw, Bool.true_eq_false, if_false]
    split <;> rfl
  rw [hq]
  obtain ⟨h1, h2, h3, h4, h5⟩ := half_run (cl := { cl with net := cl.net.shut }) ⟨hraw, rfl⟩ evs he
  have hc := close_text (h4.trans hk) (h5.trans ho) h2.raw
  refine ⟨h1, h3.trans (by simp [received, conns, Net.shut]), ?_, ?_⟩
  · rw [hc]; simp [closeNet, h2.shut]
  · rw [hc]; simp [reconnect, redial]

theorem ops_keep (cl : Client) (evs : List Ev) (he : ∀ e ∈ evs, IsOp e) :
    (run cl evs).2.kind = cl.kind ∧ (run cl evs).2.raw = cl.raw ∧ (run cl evs).2.closeCh = cl.closeCh
      ∧ (run cl evs).2.net.isOpen = cl.net.isOpen := by
  induction evs generalizing cl with
  | nil => exact ⟨rfl, rfl, rfl, rfl⟩
  | cons e evs ih =>
    cases e with
    | op c f =>
      obtain ⟨a, _, b, d, _, n⟩ := op_fields cl c f
      obtain ⟨i1, i2, i3, i4⟩ := ih (op cl c f).2 (fun x hx => he x (by simp [hx]))
      exact ⟨i1.trans a, i2.trans b, i3.trans d, i4.trans n⟩
    | close => exact absurd (he .close (by simp)) (by simp [IsOp])
    | reconnect d => exact absurd (he (.reconnect d) (by simp)) (by simp [IsOp])

/-- C33, text connections: after Close and Reconnect the client works again (`C33_fresh`), but it can no
longer be closed: Close returns "memcached: already closed" and leaves the connection open. -/
theorem C33_text_not_closable (cl : Client) (hk : cl.kind = .text)
    (hc : (close cl).1 = .ok .done) (evs : List Ev) (he : ∀ e ∈ evs, IsOp e) :
    let cl' := (run (reconnect (close cl).2 true).2 evs).2
    (reconnect (close cl).2 true).1 = .ok .done
      ∧ (close cl').1 = .err (.msg b!"memcached: already closed") ∧ (close cl').2 = cl' ∧ cl'.net.isOpen = true := by
  have hcl : cl.closeCh = true := by
    by_cases h : cl.closeCh = true
    · exact h
    · simp [close, hk, h] at hc
  have hraw : cl.raw = true := by
    by_cases h : cl.raw = true
    · exact h
    · simp [close, hk, hcl, h] at hc
  rw [close_text hk hcl hraw]
  simp only [reconnect, if_true, redial]
  obtain ⟨h1, h2, h3, h4⟩ := ops_keep { cl with net := {}, raw := true, closeCh := false, old := cl.old ++ [cl.net.shut] } evs he
  refine ⟨trivial, ?_, ?_, h4⟩
  · unfold close
    rw [h1, h3, hk]
    rfl
  · unfold close
    rw [h1, h3, hk]
    rfl

/-- C33, text connections: and when, after a Close and a Reconnect, the dial of another Reconnect fails,
nothing works ever again: no operation, no Close, no Reconnect. -/
theorem C33_text_stuck (cl : Client) (hk : cl.kind = .text)
    (hc : (close cl).1 = .ok .done) (evs evs' : List Ev) (he : ∀ e ∈ evs, IsOp e) (he' : ∀ e ∈ evs', Encodes e) :
    let cl' := (reconnect (run (reconnect (close cl).2 true).2 evs).2 false).2
    (∀ r ∈ (run cl' evs').1, Fails r) ∧ received (run cl' evs').2 = received cl' := by
  have hcl : cl.closeCh = true := by
    by_cases h : cl.closeCh = true
    · exact h
    · simp [close, hk, h] at hc
  have hraw : cl.raw = true := by
    by_cases h : cl.raw = true
    · exact h
    · simp [close, hk, hcl, h] at hc
  rw [close_text hk hcl hraw]
  have hfirst : (reconnect { cl with net := cl.net.shut, raw := false, closeCh := false } true).2
      = { cl with net := {}, raw := true, closeCh := false, old := cl.old ++ [cl.net.shut] } := rfl
  rw [hfirst]
  obtain ⟨h1, h2, h3, h4⟩ := ops_keep { cl with net := {}, raw := true, closeCh := false, old := cl.old ++ [cl.net.shut] } evs he
  refine dead_run ?_ evs' he'
  generalize (run { cl with net := {}, raw := true, closeCh := false, old := cl.old ++ [cl.net.shut] } evs).2 = x at h1 h2 h3 h4
  have : (reconnect x false).2 = { x with net := x.net.shut } := by
    simp [reconnect, h2, closeNet, h4, redial]
  rw [this]
  exact ⟨h2, rfl, fun _ => h3⟩

/-! ### Instances -/

/-- A history: an operation, a Close, an operation, a second Close, a Reconnect, an operation, a Close. -/
def lifeStory : List Ev :=
  [.op ((Text.delete b!"k").map fun _ => .done) (.answered b!"DELETED\r\nrest"), .close,
   .op ((Text.delete b!"k").map fun _ => .done) (.answered b!"DELETED\r\n"), .close, .reconnect true,
   .op ((Text.delete b!"k").map fun _ => .done) (.answered b!"NOT_FOUND\r\n"), .close]

example : (run (new .text false) lifeStory).1
    = [.ok .done, .ok .done, .err errClosed, .err errAlready, .ok .done, .err .itemNotFound, .err errAlready] := by
  decide +kernel

/-- The bytes left unread on the first connection do not disturb the second. -/
example : received (run (new .text false) lifeStory).2 = [b!"delete k\r\n", b!"delete k\r\n"] := by decide +kernel

/-- The same history on a meta connection. -/
example : (run (new .metap true) [.op ((Meta.delete b!"k").map fun _ => .done) (.answered b!"HD\r\n"), .close,
    .op ((Meta.delete b!"k").map fun _ => .done) (.answered b!"HD\r\n"), .close, .reconnect true]).1
    = [.ok .done, .ok .done, .err .io, .err .io, .err .io] := by
  decide +kernel

example : (close (new .text true)).1 = .ok .done ∧ (close (new .binary true)).1 = .ok .done := by decide +kernel

end Props
end Verif
