import Verif.Client.Heart
import Verif.Props.Shut
import Verif.Props.Heartbeat
/-!
C71: the options of the constructors, and the heartbeat among the goroutines that use a client.
-/

namespace Verif
namespace Heart
open Spec
open Life (Kind errClosed errAlready)
open Sched (ClientCall)
open Props (HbReached)

/-! ## The options -/

theorem applyOpts_own : ∀ (opts : List ServerOpt) (o : ServerOption),
    (∀ f ∈ opts, f = enableHeartbeat ∨ f = enableAutoReconnect) →
    ∃ o', applyOpts opts o = .ok o' ∧ (0 < o'.interval ↔ 0 < o.interval ∨ enableHeartbeat ∈ opts) ∧
      (o'.auto = true ↔ o.auto = true ∨ enableAutoReconnect ∈ opts) := by
  have hne : enableHeartbeat ≠ enableAutoReconnect := by
    intro h
    have := congrFun h {}
    simp [enableHeartbeat, enableAutoReconnect] at this
  intro opts
  induction opts with
  | nil => intro o _; exact ⟨o, rfl, by simp, by simp⟩
  | cons f fs ih =>
    intro o hf
    rcases hf f (List.mem_cons_self ..) with h | h
    · obtain ⟨o', h1, h2, h3⟩ := ih { o with interval := 1000000000 } fun g hg => hf g (List.mem_cons_of_mem _ hg)
      refine ⟨o', by rw [h]; exact h1, ?_, ?_⟩
      · rw [h2, h]; simp
      · rw [h3, h, List.mem_cons]
        simp [Ne.symm hne]
    · obtain ⟨o', h1, h2, h3⟩ := ih { o with auto := true } fun g hg => hf g (List.mem_cons_of_mem _ hg)
      refine ⟨o', by rw [h]; exact h1, ?_, ?_⟩
      · rw [h2, h, List.mem_cons]
        simp [hne]
      · rw [h3, h]; simp

/-- **C71**: for every list of the two options, in any order and with any repetitions: the constructor returns a client
with one open connection, a heartbeat runs if and only if EnableHeartbeat is among them, and it reconnects if and only
if EnableAutoReconnect is among them too.  (So EnableAutoReconnect alone has no effect.) -/
theorem C71_options (opts : List ServerOpt) (h : ∀ f ∈ opts, f = enableHeartbeat ∨ f = enableAutoReconnect) :
    (newServer (.ok ()) opts).1 = .ok () ∧ (newServer (.ok ()) opts).2.open_ = 1 ∧
      ((newServer (.ok ()) opts).2.heartbeat ≠ none ↔ enableHeartbeat ∈ opts) ∧
      ∀ r, (newServer (.ok ()) opts).2.heartbeat = some r → (r = true ↔ enableAutoReconnect ∈ opts) := by
  obtain ⟨o', h1, h2, h3⟩ := applyOpts_own opts {} h
  have h2' : 0 < o'.interval ↔ enableHeartbeat ∈ opts := by rw [h2]; simp
  have h3' : o'.auto = true ↔ enableAutoReconnect ∈ opts := by rw [h3]; simp
  have hn : newServer (.ok ()) opts = (.ok (), ⟨1, if 0 < o'.interval then some o'.auto else none⟩) := by
    simp only [newServer, h1]
  rw [hn]
  refine ⟨rfl, rfl, ?_, fun r hr => ?_⟩
  · show (if 0 < o'.interval then some o'.auto else none) ≠ none ↔ _
    rw [← h2']
    by_cases hi : 0 < o'.interval
    · simp [hi]
    · simp [hi]
  · replace hr : (if 0 < o'.interval then some o'.auto else none) = some r := hr
    rw [← h3']
    split at hr
    · rw [Option.some.inj hr]
    · cases hr

/-- Options of both kinds: the heartbeat runs and reconnects; EnableAutoReconnect alone: no heartbeat. -/
theorem C71_options_concrete :
    newServer (.ok ()) [enableAutoReconnect, enableHeartbeat, enableAutoReconnect] = (.ok (), ⟨1, some true⟩) ∧
    newServer (.ok ()) [enableHeartbeat] = (.ok (), ⟨1, some false⟩) ∧
    newServer (.ok ()) [enableAutoReconnect] = (.ok (), ⟨1, none⟩) := ⟨rfl, rfl, rfl⟩

/-- **C71**: when the connection cannot be dialled the constructor returns the error and leaves nothing behind, whatever
the options. -/
theorem C71_dial_fails (e : Err) (opts : List ServerOpt) : newServer (.err e) opts = (.err e, ⟨0, none⟩) := rfl

/-- **C71**: an option that panics, such as a nil one, anywhere among the two proper ones: the constructor panics, and
the connection it has dialled stays open although there is no client to close it with. -/
theorem C71_bad_option (opts rest : List ServerOpt) (h : ∀ f ∈ opts, f = enableHeartbeat ∨ f = enableAutoReconnect)
    (bad : ServerOpt) (hb : ∀ o, bad o = .panic) :
    newServer (.ok ()) (opts ++ bad :: rest) = (.panic, ⟨1, none⟩) := by
  have : ∀ (l : List ServerOpt) (o : ServerOption), (∀ f ∈ l, f = enableHeartbeat ∨ f = enableAutoReconnect) →
      applyOpts (l ++ bad :: rest) o = .panic := by
    intro l
    induction l with
    | nil => intro o _; simp [applyOpts, hb]
    | cons f fs ih =>
      intro o hf
      have ih' := fun o => ih o fun g hg => hf g (List.mem_cons_of_mem _ hg)
      rcases hf f (List.mem_cons_self ..) with h | h
      · rw [h]; exact ih' _
      · rw [h]; exact ih' _
  simp only [newServer, this opts {} h]

/-! ## With a heartbeat, the client is a client used by one more goroutine -/

variable {T : Type} [DecidableEq T]

/-- Not inside any call. -/
def At.resting : At → Bool
  | .select | .retry | .giveUp | .returned => true
  | _ => false

theorem after_resting (auto : Bool) (e : Reconn.Event) : (after auto e).resting = true := by
  unfold after
  split
  · rfl
  · rfl
  · cases auto <;> rfl

/-- The parameters allow what the heartbeat does. -/
structure Allows (P : Reconn.Params (Option T)) (auto : Bool) : Prop where
  version : ∀ c, IsVersion P.kind c → P.calls c
  reconnect : auto = true → P.reconnectors none
  close : auto = false → P.closers none

def Rests (s : State T) : Prop := s.hb.resting = true → s.base.pc none = .user .idle

theorem rests {P : Reconn.Params (Option T)} {auto : Bool} {s : State T} (h : Reach P auto s) : Rests s := by
  induction h with
  | init => intro _; rfl
  | step _ hs ih =>
    cases hs with
    | fire _ => exact ih
    | world b _ hp => intro hr; exact hp.trans (ih hr)
    | quit h1 _ => intro _; exact ih (by rw [h1]; rfl)
    | tick c _ _ _ => intro hr; cases hr
    | inside b _ h2 _ _ => intro hr; exact absurd (ih hr) h2
    | probed b e _ _ _ h _ => intro _; exact h
    | retry _ => intro hr; cases hr
    | reconnected b ok _ _ _ h _ => intro _; exact h
    | giveUp _ => intro hr; cases hr
    | closed b _ _ _ h => intro _; exact h

/-- When the heartbeat reconnects and when it closes. -/
theorem modes {P : Reconn.Params (Option T)} {auto : Bool} {s : State T} (h : Reach P auto s) :
    ((s.hb = .retry ∨ s.hb = .reconnecting) → auto = true) ∧ ((s.hb = .giveUp ∨ s.hb = .closing) → auto = false) := by
  induction h with
  | init => exact ⟨by simp [init], by simp [init]⟩
  | step _ hs ih =>
    cases hs with
    | fire _ => exact ih
    | world b _ hp => exact ih
    | quit h1 _ => simp
    | tick c _ _ _ => simp
    | inside b _ h2 _ _ => exact ih
    | probed b e _ _ _ h _ =>
      show ((after auto e = .retry ∨ after auto e = .reconnecting) → _) ∧ ((after auto e = .giveUp ∨ after auto e = .closing) → _)
      unfold after
      split
      · simp
      · simp
      · cases auto <;> simp
    | retry h => exact ⟨fun _ => ih.1 (.inl h), by simp⟩
    | reconnected b ok _ _ _ h _ => constructor <;> (intro hh; revert hh; cases ok <;> simp)
    | giveUp h => exact ⟨by simp, fun _ => ih.2 (.inl h)⟩
    | closed b _ _ _ h => simp

theorem base_step {P : Reconn.Params (Option T)} {auto : Bool} (ha : Allows P auto) {s s' : State T} (h : Reach P auto s)
    (hs : Step P auto s s') : s'.base = s.base ∨ Reconn.Step P s.base s'.base := by
  cases hs with
  | fire _ => exact .inl rfl
  | world b hb _ => exact .inr hb
  | quit _ _ => exact .inl rfl
  | tick c h1 _ hv => exact .inr (.call _ _ c (rests h (by rw [h1]; rfl)) (ha.version c hv))
  | inside b hb _ _ _ => exact .inr hb
  | probed b e _ hb _ _ _ => exact .inr hb
  | retry h1 => exact .inr (.callReconnect _ _ (rests h (by rw [h1]; rfl)) (ha.reconnect ((modes h).1 (.inl h1))))
  | reconnected b ok _ hb _ _ _ => exact .inr hb
  | giveUp h1 => exact .inr (.callClose _ _ (rests h (by rw [h1]; rfl)) (ha.close ((modes h).2 (.inl h1))))
  | closed b _ hb _ _ => exact .inr hb

/-- **C71**: a client with a heartbeat is a client used by one goroutine more, which calls Version and then Reconnect or
Close: whatever is true of the runs of C69 is true of its runs. -/
theorem C71_embeds (P : Reconn.Params (Option T)) (auto : Bool) (ha : Allows P auto) (s : State T) (h : Reach P auto s) :
    Reconn.Reach P s.base := by
  induction h with
  | init => exact .init
  | step hr hs ih =>
    rcases base_step ha hr hs with hb | hb
    · rw [hb]; exact ih
    · exact ih.step hb

/-- For instance: with a heartbeat that reconnects, the operations between two successful Reconnects, the probes of the
heartbeat among them, return what they would return one after the other on a connection of their own, up to the first
one that fails because the connection broke or a deadline passed. -/
theorem C71_linear (P : Reconn.Params (Option T)) (auto : Bool) (ha : Allows P auto) (hon : ∀ g, Online (P.resp g))
    (hc : ∀ c, P.calls c → ClientCall P.kind c) (s : State T) (h : Reach P auto s) (n : Nat) :
    ∃ good bad, epoch n s.base.log = good ++ bad ∧
      good.map (·.2) = oneByOne (P.resp n) [] [] (good.map (·.1)) ∧
      (∀ c r rest, bad = (c, r) :: rest → (r = .err .io ∨ r = .err errClosed) ∧
        ((s.base.conns n).isOpen = false ∨ (s.base.conns n).ended = true ∨ P.timeout = true ∧ P.late = true)) := by
  obtain ⟨good, bad, h1, h2, h3, _⟩ := Reconn.C69_linear P hon hc s.base (C71_embeds P auto ha s h) n
  exact ⟨good, bad, h1, h2, h3⟩

/-! ## The heartbeat in detail is the heartbeat of C34 -/

/-- Where the goroutine of C34 is. -/
def At.abs : At → Heartbeat.At
  | .select => .select
  | .probing => .version
  | .retry | .reconnecting => .reconnect
  | .giveUp | .closing => .close
  | .returned => .returned

theorem chan_step {P : Reconn.Params (Option T)} {s s' : Reconn.State (Option T)} (hr : Reconn.Reach P s)
    (hs : Reconn.Step P s s') (hc : s'.chanClosed = true) : s.chanClosed = true ∨ P.kind = .text := by
  by_cases hk : P.kind = .text
  · exact .inr hk
  · rw [(Reconn.notText hk (hr.step hs)).chan] at hc; cases hc

structure Follows (P : Reconn.Params (Option T)) (auto : Bool) (s : State T) (h : Heartbeat.State) : Prop where
  reached : HbReached P.kind auto h
  timer : h.timer = s.timer
  probes : h.probes = s.probes
  hb : h.hb = s.hb.abs
  chan : s.base.chanClosed = true → h.closed = true

theorem HbReached.byWorld {kind : Kind} {auto : Bool} {h t : Heartbeat.State} (hr : HbReached kind auto h)
    (hs : Heartbeat.Step kind auto .world h t) : HbReached kind auto t := by
  obtain ⟨n, hr⟩ := hr; exact ⟨n, hr.world hs⟩

theorem HbReached.byHb {kind : Kind} {auto : Bool} {h t : Heartbeat.State} (hr : HbReached kind auto h)
    (hs : Heartbeat.Step kind auto .hb h t) : HbReached kind auto t := by
  obtain ⟨n, hr⟩ := hr; exact ⟨n + 1, hr.hb hs⟩

/-- The channel may have been closed meanwhile. -/
theorem Follows.close {P : Reconn.Params (Option T)} {auto : Bool} {s : State T} {h : Heartbeat.State} (hf : Follows P auto s h)
    {b : Reconn.State (Option T)} (hr : Reconn.Reach P s.base) (hb : Reconn.Step P s.base b) :
    ∃ h', Follows P auto { s with base := b } h' := by
  by_cases hk : P.kind = .text
  · exact ⟨_, HbReached.byWorld hf.reached (.userClose h), hf.timer, hf.probes, hf.hb, fun _ => by simp [Heartbeat.closeCh, hk]⟩
  · refine ⟨h, hf.reached, hf.timer, hf.probes, hf.hb, fun hc => hf.chan ?_⟩
    rcases chan_step hr hb hc with h | h
    · exact h
    · exact absurd h hk

/-- **C71**: as long as no probe panics, the heartbeat of a client in use does what the heartbeat of C34 does: the timer,
the probes and the goroutine are those of one of its runs, and there the channel is closed if it is closed here. -/
theorem C71_heartbeat (P : Reconn.Params (Option T)) (auto : Bool) (ha : Allows P auto) (s : State T) (h : Reach P auto s)
    (hn : s.crashed = false) : ∃ h, Follows P auto s h := by
  induction h with
  | init => exact ⟨Heartbeat.start, ⟨0, .refl⟩, rfl, rfl, rfl, fun hc => by cases hc⟩
  | @step s s' hr hs ih =>
    have hbase := C71_embeds P auto ha _ hr
    cases hs with
    | fire ht =>
      obtain ⟨h, hf⟩ := ih hn
      exact ⟨_, HbReached.byWorld hf.reached (.fire h (hf.timer.trans ht)), rfl, hf.probes, hf.hb, hf.chan⟩
    | world b hb _ =>
      obtain ⟨h, hf⟩ := ih hn
      exact hf.close hbase hb
    | quit h1 h2 =>
      obtain ⟨h, hf⟩ := ih hn
      exact ⟨_, HbReached.byHb hf.reached (.quit h (by rw [hf.hb, h1]; rfl) (hf.chan h2)), hf.timer, hf.probes, rfl, hf.chan⟩
    | tick c h1 h2 _ =>
      obtain ⟨h, hf⟩ := ih hn
      exact ⟨_, HbReached.byHb hf.reached (.tick h (by rw [hf.hb, h1]; rfl) (hf.timer.trans h2)), rfl,
        by show h.probes + 1 = s.probes + 1; rw [hf.probes], rfl, hf.chan⟩
    | inside b hb _ _ _ =>
      obtain ⟨h, hf⟩ := ih hn
      exact hf.close hbase hb
    | probed b e h1 hb _ _ _ =>
      replace hn : (s.crashed || panics e) = false := hn
      rw [Bool.or_eq_false_iff] at hn
      obtain ⟨h, hf⟩ := ih hn.1
      obtain ⟨h', hf'⟩ := hf.close hbase hb
      have hv : h'.hb = .version := by rw [hf'.hb]; show s.hb.abs = _; rw [h1]; rfl
      have good : ∀ (e : Reconn.Event), panics e = false → (after auto e = .select) ∨
          (after auto e = .retry ∧ auto = true) ∨ (after auto e = .giveUp ∧ auto = false) := by
        intro e he
        unfold after
        split
        · exact .inl rfl
        · simp [panics] at he
        · cases auto <;> simp
      rcases good e hn.2 with hx | ⟨hx, hau⟩ | ⟨hx, hau⟩
      · exact ⟨_, HbReached.byHb hf'.reached (.probeOk h' hv), hf'.timer, hf'.probes,
          by show Heartbeat.At.select = (after auto e).abs; rw [hx]; rfl, hf'.chan⟩
      · exact ⟨_, HbReached.byHb hf'.reached (.probeRetry h' hv hau), hf'.timer, hf'.probes,
          by show Heartbeat.At.reconnect = (after auto e).abs; rw [hx]; rfl, hf'.chan⟩
      · exact ⟨_, HbReached.byHb hf'.reached (.probeGiveUp h' hv hau), hf'.timer, hf'.probes,
          by show Heartbeat.At.close = (after auto e).abs; rw [hx]; rfl, hf'.chan⟩
    | retry h1 =>
      obtain ⟨h, hf⟩ := ih hn
      exact ⟨h, hf.reached, hf.timer, hf.probes, by rw [hf.hb, h1]; rfl, hf.chan⟩
    | reconnected b ok h1 hb _ _ _ =>
      obtain ⟨h, hf⟩ := ih hn
      obtain ⟨h', hf'⟩ := hf.close hbase hb
      have hv : h'.hb = .reconnect := by rw [hf'.hb]; show s.hb.abs = _; rw [h1]; rfl
      cases ok with
      | true => exact ⟨_, HbReached.byHb hf'.reached (.reconnectOk h' hv), hf'.timer, hf'.probes, rfl, hf'.chan⟩
      | false => exact ⟨_, HbReached.byHb hf'.reached (.reconnectErr h' hv), hf'.timer, hf'.probes, rfl, hf'.chan⟩
    | giveUp h1 =>
      obtain ⟨h, hf⟩ := ih hn
      exact ⟨h, hf.reached, hf.timer, hf.probes, by rw [hf.hb, h1]; rfl, hf.chan⟩
    | closed b h1 hb _ _ =>
      obtain ⟨h, hf⟩ := ih hn
      obtain ⟨h', hf'⟩ := hf.close hbase hb
      have hv : h'.hb = .close := by rw [hf'.hb]; show s.hb.abs = _; rw [h1]; rfl
      refine ⟨_, HbReached.byHb hf'.reached (.closeDone h' hv), hf'.timer, hf'.probes, rfl, fun hc => ?_⟩
      show Heartbeat.closeCh P.kind h'.closed = true
      unfold Heartbeat.closeCh
      split
      · rfl
      · exact hf'.chan hc

/-- **C71**: however long the program runs and whatever its goroutines do, the heartbeat sends at most one probe. -/
theorem C71_probe_once (P : Reconn.Params (Option T)) (auto : Bool) (s : State T) (h : Reach P auto s) :
    s.probes ≤ 1 := by
  suffices hh : s.probes = (if s.timer = .drained then 1 else 0) by rw [hh]; split <;> decide
  induction h with
  | init => rfl
  | @step s s' _ hs ih =>
    cases hs with
    | fire ht => rw [ht] at ih; exact ih
    | tick c _ ht _ => rw [ht] at ih; show s.probes + 1 = 1; rw [ih]; rfl
    | _ => exact ih

end Heart
end Verif
