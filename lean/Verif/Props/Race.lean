import Verif.Client.Race
import Verif.Props.HeartUse
/-!
C72: data races between the methods of a client.
-/

namespace Verif
namespace Race
open Spec
open Life (Kind)
open Reconn (At State Params Reach Step Excl excl NotText notText)

variable {T : Type} [DecidableEq T]

/-- Whoever is about to touch a shared variable holds the mutex or is in Close. -/
theorem next_inside {P : Params T} {s : State T} {a : At} {x : Access} (h : x ∈ next P s a) :
    a.inside = true ∨ a.closing = true := by
  cases a with
  | user a => cases a <;> simp_all [next, At.inside, At.closing, Sched.At.inside]
  | _ => simp_all [next, At.inside]

/-- **C72**: every data race has a goroutine inside Close. -/
theorem C72_only_close (P : Params T) (s : State T) (h : Reach P s) (t u : T) (hr : Racing P s t u) :
    (s.pc t).closing = true ∨ (s.pc u).closing = true := by
  obtain ⟨hne, a, ha, b, hb, _⟩ := hr
  rcases next_inside ha with h1 | h1
  · rcases next_inside hb with h2 | h2
    · exact absurd ((excl h).one h2 h1) hne
    · exact .inr h2
  · exact .inl h1

theorem no_closing {P : Params T} (hcl : ∀ t, ¬ P.closers t) {s : State T} (h : Reach P s) (t : T) : (s.pc t).closing = false :=
  (Reconn.tidy hcl h).closing t

/-- **C72**: if Close is not called, then however many goroutines use the client and call Reconnect (the heartbeat is
one), there is no data race. -/
theorem C72_no_race (P : Params T) (hcl : ∀ t, ¬ P.closers t) (s : State T) (h : Reach P s) (t u : T) : ¬ Racing P s t u := by
  intro hr
  rcases C72_only_close P s h t u hr with hc | hc
  · rw [no_closing hcl h] at hc; cases hc
  · rw [no_closing hcl h] at hc; cases hc

/-- **C72**: in the meta and the binary client only Close and Reconnect race: the one reads `raw` while the other writes
it. -/
theorem C72_meta_binary (P : Params T) (hk : P.kind ≠ .text) (s : State T) (h : Reach P s) (t u : T) (hr : Racing P s t u) :
    (s.pc t = .user .closeRaw ∧ ∃ g, s.pc u = .setRaw g) ∨ (s.pc u = .user .closeRaw ∧ ∃ g, s.pc t = .setRaw g) := by
  have hn := notText hk h
  have key : ∀ {t u : T}, (s.pc t).closing = true → Racing P s t u → s.pc t = .user .closeRaw ∧ ∃ g, s.pc u = .setRaw g := by
    intro t u hc hr
    obtain ⟨hne, a, ha, b, hb, hl, hw⟩ := hr
    have h1 := hn.pc t
    have h2 := hn.pc u
    have ht : s.pc t = .user .closeRaw ∧ a = ⟨.raw, false⟩ := by
      revert h1 hc ha
      cases s.pc t with
      | user x => cases x <;> simp [At.closing, At.textOnly, next, hk]
      | _ => simp [At.closing]
    refine ⟨ht.1, ?_⟩
    rw [ht.2] at hl hw
    have hw' : b.write = true := by rcases hw with hw | hw; (· cases hw); exact hw
    revert h2 hb
    cases s.pc u with
    | user x =>
      cases x with
      | locked c => simp [next, hk]
      | writeDeadline c =>
        cases ht : P.timeout
        · simp [next, ht]
        · simp only [next, ht, if_true, List.mem_singleton]
          intro hb _; rw [hb] at hw'; cases hw'
      | close => simp [next, hk]
      | readDeadline c => simp only [next, List.mem_singleton]; intro hb _; rw [hb] at hw'; cases hw'
      | closeRaw => simp only [next, List.mem_singleton]; intro hb _; rw [hb] at hw'; cases hw'
      | closeChan => intro _ h; cases h
      | clearChan => intro _ h; cases h
      | clearRaw => intro _ h; cases h
      | writing c w =>
        simp only [next, List.mem_cons, List.not_mem_nil, or_false]
        rintro (hb | hb) _ <;> rw [hb] at hl <;> cases hl
      | reading c =>
        simp only [next, List.mem_cons, List.not_mem_nil, or_false]
        rintro (hb | hb) _ <;> rw [hb] at hl <;> cases hl
      | _ => simp [next]
    | setRaw g => intro _ _; exact ⟨g, rfl⟩
    | setConn g => simp only [next, List.mem_singleton]; intro hb _; rw [hb] at hl; cases hl
    | locked => simp only [next, List.mem_singleton]; intro hb _; rw [hb] at hw'; cases hw'
    | called => simp [next]
    | dial => simp [next]
  rcases C72_only_close P s h t u hr with hc | hc
  · exact .inl (key hc hr)
  · refine .inr (key hc ?_)
    obtain ⟨hne, a, ha, b, hb, hl, hw⟩ := hr
    exact ⟨Ne.symm hne, b, hb, a, ha, hl.symm, hw.symm⟩

/-- **C72**: so a meta or binary client on which nobody calls Reconnect has no data races, whatever else is called. -/
theorem C72_meta_binary_no_reconnect (P : Params T) (hk : P.kind ≠ .text) (hre : ∀ t, ¬ P.reconnectors t) (s : State T)
    (h : Reach P s) (t u : T) : ¬ Racing P s t u := by
  have hno : ∀ t g, s.pc t ≠ .setRaw g := by
    intro t g hg
    have := (Heart.no_redial hre h).1 t
    rw [hg] at this; cases this
  intro hr
  rcases C72_meta_binary P hk s h t u hr with ⟨_, g, hg⟩ | ⟨_, g, hg⟩
  · exact hno u g hg
  · exact hno t g hg

/-! ## The races there are -/

/-- **C72**: Close races with Reconnect in every kind of client. -/
theorem C72_close_reconnect (P : Params Bool) (hc : P.closers true) (hr : P.reconnectors false) :
    ∃ s, Reach P s ∧ s.pc true = .user .closeRaw ∧ s.pc false = .setRaw 1 ∧ Racing P s true false := by
  have r0 : Reach P Reconn.init := .init
  have r1 := r0.step (.callReconnect _ false rfl hr)
  have r2 := r1.step (.lockReconnect _ false rfl rfl)
  have r3 := r2.step (.shut _ false 0 rfl rfl rfl)
  have r4 := r3.step (.dial _ false rfl)
  have r5 := r4.step (.callClose _ true rfl hc)
  have r6 := r5.step (.closeGo _ true rfl (fun _ => rfl))
  exact ⟨_, r6, rfl, rfl, by decide, ⟨.raw, false⟩, List.mem_singleton.2 rfl, ⟨.raw, true⟩, List.mem_singleton.2 rfl, rfl, .inr rfl⟩

/-- **C72**: Close of the text client races with every operation. -/
theorem C72_text_close_operation (P : Params Bool) (hk : P.kind = .text) (hc : P.closers true) (c : Call Out) (h : P.calls c) :
    ∃ s, Reach P s ∧ s.pc true = .user .clearRaw ∧ s.pc false = .user (.locked c) ∧ Racing P s true false := by
  have r0 : Reach P Reconn.init := .init
  have r1 := r0.step (.call _ false c rfl h)
  have r2 := r1.step (.lock _ false c rfl rfl)
  have r3 := r2.step (.callClose _ true rfl hc)
  have r4 := r3.step (.closeGo _ true rfl (fun _ => rfl))
  have r5 := r4.step (.closeRaw _ true 0 rfl rfl)
  rw [if_pos hk] at r5
  refine ⟨_, r5, rfl, rfl, by decide, ⟨.raw, true⟩, List.mem_singleton.2 rfl, ⟨.raw, false⟩, ?_, rfl, .inl rfl⟩
  show (⟨.raw, false⟩ : Access) ∈ (if P.kind = .text then ([⟨.raw, false⟩] : List Access) else [])
  rw [if_pos hk]; exact List.mem_singleton.2 rfl

/-- **C72**: two Closes of the text client race with each other. -/
theorem C72_text_two_closes (P : Params Bool) (hk : P.kind = .text) (hc : P.closers true) (hc' : P.closers false) :
    ∃ s, Reach P s ∧ s.pc true = .user .clearChan ∧ s.pc false = .user .close ∧ Racing P s true false := by
  have r0 : Reach P Reconn.init := .init
  have r1 := r0.step (.callClose _ true rfl hc)
  have r2 := r1.step (.closeGo _ true rfl (fun _ => rfl))
  have r3 := r2.step (.closeRaw _ true 0 rfl rfl)
  rw [if_pos hk] at r3
  have r4 := r3.step (.clearRaw _ true rfl)
  have r5 := r4.step (.closeChan _ true rfl rfl rfl)
  have r6 := r5.step (.callClose _ false rfl hc')
  refine ⟨_, r6, rfl, rfl, by decide, ⟨.closeCh, true⟩, List.mem_singleton.2 rfl, ⟨.closeCh, false⟩, ?_, rfl, .inl rfl⟩
  show (⟨.closeCh, false⟩ : Access) ∈ (if P.kind = .text then ([⟨.closeCh, false⟩] : List Access) else [])
  rw [if_pos hk]; exact List.mem_singleton.2 rfl

/-- **C72**: a text client with EnableHeartbeat alone races with itself: when the probe fails the heartbeat calls Close,
while a goroutine of the program, which need not call Close, is in an operation. -/
theorem C72_heartbeat (P : Params (Option T)) (hk : P.kind = .text) (ht : P.timeout = false) (t : T) (c : Call Out)
    (hc : P.calls c) :
    ∃ s : Heart.State T, Heart.Reach P false s ∧ s.base.pc none = .user .clearRaw ∧ s.base.pc (some t) = .user (.locked c) ∧
      Racing P s.base none (some t) := by
  obtain ⟨v, w, hv, hw⟩ := Heart.version_exists P.kind
  obtain ⟨s, r, h1, h2, h3, h4, h10, h5, h6, h7, h8, h9, hb⟩ := Heart.probe_fails (T := T) P false ht v w hv hw
  have r1 := r.step (.world _ _ (.call _ (some t) c (h6 _) hc) rfl)
  have p2 : (s.base.goto (some t) (.user (.called c))).pc (some t) = .user (.called c) := if_pos rfl
  have r2 := r1.step (.world _ _ (.lock _ (some t) c p2 h1) rfl)
  have r3 := r2.step (.giveUp _ hb)
  have r4 := r3.step (.inside _ _ (.closeGo _ none rfl (fun _ => h10)) (by intro hh; cases hh) (by intro hh; cases hh) (by intro hh; cases hh))
  have r5 := r4.step (.inside _ _ (.closeRaw _ none 0 rfl h2) (by intro hh; cases hh)
    (by show Reconn.At.user (if P.kind = .text then .clearRaw else .idle) ≠ _; rw [if_pos hk]; intro hh; cases hh)
    (by show Reconn.At.user (if P.kind = .text then .clearRaw else .idle) ≠ _; rw [if_pos hk]; intro hh; cases hh))
  rw [if_pos hk] at r5
  have p5 : (if (some t : Option T) = some t then (.user (.locked c) : At) else (s.base.goto (some t) (.user (.called c))).pc (some t))
    = .user (.locked c) := if_pos rfl
  refine ⟨_, r5, rfl, p5, (by intro hh; cases hh), ⟨.raw, true⟩, List.mem_singleton.2 rfl, ⟨.raw, false⟩, ?_, rfl, .inl rfl⟩
  show (⟨.raw, false⟩ : Access) ∈ next P _ (if (some t : Option T) = some t then (.user (.locked c) : At) else _)
  rw [if_pos rfl]
  show (⟨.raw, false⟩ : Access) ∈ (if P.kind = .text then ([⟨.raw, false⟩] : List Access) else [])
  rw [if_pos hk]; exact List.mem_singleton.2 rfl

/-! ## The table of accesses is complete -/

/-- **C72**: a field changes only when a goroutine takes a step for which the table has a write of it, and what was
sent on a connection or met with a write error there only when the table has a write of its buffer. -/
theorem C72_writes (P : Params T) (s s' : State T) (h : Step P s s') :
    (s'.raw ≠ s.raw → ∃ t, s'.pc t ≠ s.pc t ∧ ⟨.raw, true⟩ ∈ next P s (s.pc t)) ∧
    (s'.conn ≠ s.conn → ∃ t, s'.pc t ≠ s.pc t ∧ ⟨.conn, true⟩ ∈ next P s (s.pc t)) ∧
    (s'.closeCh ≠ s.closeCh → ∃ t, s'.pc t ≠ s.pc t ∧ ⟨.closeCh, true⟩ ∈ next P s (s.pc t)) ∧
    (∀ g, (s'.conns g).sent ≠ (s.conns g).sent ∨ (s'.conns g).werr ≠ (s.conns g).werr →
      ∃ t, s'.pc t ≠ s.pc t ∧ ⟨.buffer g, true⟩ ∈ next P s (s.pc t)) := by
  have hset : ∀ (q : State T) (g k : Nat) (c : Reconn.Conn), (c.sent = (q.conns g).sent) → (c.werr = (q.conns g).werr) →
      ¬ (((q.setConn g c).conns k).sent ≠ (q.conns k).sent ∨ ((q.setConn g c).conns k).werr ≠ (q.conns k).werr) := by
    intro q g k c h1 h2
    have e : (q.setConn g c).conns k = if k = g then c else q.conns k := rfl
    rw [e]
    by_cases hk : k = g
    · rw [if_pos hk, hk, h1, h2]; simp
    · rw [if_neg hk]; simp
  have moved : ∀ (t : T) (a : At), a ≠ s.pc t → (s.goto t a).pc t ≠ s.pc t := by
    intro t a ha
    rw [Reconn.goto_pc, if_pos rfl]; exact ha
  cases h with
  | write t c x y hp _ _ =>
    refine ⟨fun h => absurd rfl h, fun h => absurd rfl h, fun h => absurd rfl h, fun g hg => ?_⟩
    have e : (((s.goto t (.user (.writing c y))).setConn s.conn { s.cur with sent := s.cur.sent ++ x }).conns g) =
      if g = s.conn then { s.cur with sent := s.cur.sent ++ x } else s.conns g := rfl
    rw [e] at hg
    by_cases hgc : g = s.conn
    · refine ⟨t, moved t _ ?_, ?_⟩
      · rw [hp]
        intro hh
        injection hh with hh
        injection hh with _ hh
        have hx : x = [] := by
          have := congrArg List.length hh
          rw [List.length_append] at this
          exact List.length_eq_zero_iff.1 (by omega)
        rw [if_pos hgc, hx, List.append_nil, hgc] at hg
        rcases hg with hg | hg <;> exact hg rfl
      · rw [hp, hgc]; simp [next]
    · rw [if_neg hgc] at hg; simp at hg
  | writeFails t c x hp _ =>
    refine ⟨fun h => absurd rfl h, fun h => absurd rfl h, fun h => absurd rfl h, fun g hg => ?_⟩
    have e : (((s.ret t (.op c (.err .io))).setConn s.conn { s.cur with werr := true }).conns g) =
      if g = s.conn then { s.cur with werr := true } else s.conns g := rfl
    rw [e] at hg
    by_cases hgc : g = s.conn
    · refine ⟨t, moved t (.user .idle) ?_, ?_⟩
      · rw [hp]; intro hh; cases hh
      · rw [hp, hgc]; simp [next]
    · rw [if_neg hgc] at hg; simp at hg
  | clearRaw t hp =>
    refine ⟨fun _ => ⟨t, moved t (.user .closeChan) ?_, ?_⟩, fun h => absurd rfl h, fun h => absurd rfl h, fun g h => by simp [State.goto] at h⟩
    · rw [hp]; intro hh; cases hh
    · rw [hp]; simp [next]
  | setRaw t g hp =>
    refine ⟨fun _ => ⟨t, moved t (.setConn g) ?_, ?_⟩, fun h => absurd rfl h, fun h => absurd rfl h, fun g h => by simp [State.goto] at h⟩
    · rw [hp]; intro hh; cases hh
    · rw [hp]; simp [next]
  | setConn t g hp =>
    refine ⟨fun h => absurd rfl h, fun _ => ⟨t, moved t (.user .idle) ?_, ?_⟩, fun h => absurd rfl h, fun g h => by simp [State.ret, State.goto] at h⟩
    · rw [hp]; intro hh; cases hh
    · rw [hp]; simp [next]
  | clearChan t hp =>
    refine ⟨fun h => absurd rfl h, fun h => absurd rfl h, fun _ => ⟨t, moved t (.user .idle) ?_, ?_⟩, fun g h => by simp [State.goto] at h⟩
    · rw [hp]; intro hh; cases hh
    · rw [hp]; simp [next]
  | arrive g _ _ _ _ _ _ =>
    exact ⟨fun h => absurd rfl h, fun h => absurd rfl h, fun h => absurd rfl h, fun k h => absurd h (hset _ g k _ rfl rfl)⟩
  | hangUp g _ =>
    exact ⟨fun h => absurd rfl h, fun h => absurd rfl h, fun h => absurd rfl h, fun k h => absurd h (hset _ g k _ rfl rfl)⟩
  | read t c _ _ =>
    exact ⟨fun h => absurd rfl h, fun h => absurd rfl h, fun h => absurd rfl h,
      fun k h => absurd h (hset (s.ret t (.op c (c.rd s.cur.inbox).1)) s.conn k _ rfl rfl)⟩
  | readFails t c _ _ _ =>
    exact ⟨fun h => absurd rfl h, fun h => absurd rfl h, fun h => absurd rfl h,
      fun k h => absurd h (hset (s.ret t (.op c (.err .io))) s.conn k _ rfl rfl)⟩
  | readTimeout t c _ _ _ _ =>
    exact ⟨fun h => absurd rfl h, fun h => absurd rfl h, fun h => absurd rfl h,
      fun k h => absurd h (hset (s.ret t (.op c (.err .io))) s.conn k _ rfl rfl)⟩
  | closeRaw t g _ _ =>
    exact ⟨fun h => absurd rfl h, fun h => absurd rfl h, fun h => absurd rfl h, fun k h => absurd h (hset (s.goto t _) g k _ rfl rfl)⟩
  | shut t g _ _ _ =>
    exact ⟨fun h => absurd rfl h, fun h => absurd rfl h, fun h => absurd rfl h, fun k h => absurd h (hset (s.goto t _) g k _ rfl rfl)⟩
  | _ => exact ⟨fun h => absurd rfl h, fun h => absurd rfl h, fun h => absurd rfl h, fun g h => by simp [State.goto, State.ret] at h⟩

/-- **C72**: a step does not depend on `raw` unless the table says that the goroutine that takes it reads or writes
`raw`: it can be taken in the same way whatever `raw` is. -/
theorem C72_reads_raw (P : Params T) (s s' : State T) (h : Step P s s') (hc : s'.crashed = false)
    (hn : ∀ t w, s'.pc t ≠ s.pc t → ⟨.raw, w⟩ ∉ next P s (s.pc t)) (r : Option Nat) :
    Step P { s with raw := r } { s' with raw := r } := by
  have moved : ∀ (t : T) (a : At), a ≠ s.pc t → (s.goto t a).pc t ≠ s.pc t := by
    intro t a ha
    rw [Reconn.goto_pc, if_pos rfl]; exact ha
  have bad : ∀ (t : T) (a : At) (w : Bool), s'.pc t = (s.goto t a).pc t → a ≠ s.pc t → ⟨.raw, w⟩ ∈ next P s (s.pc t) →
      Step P { s with raw := r } { s' with raw := r } := by
    intro t a w h1 h2 h3
    exact absurd h3 (hn t w (by rw [h1]; exact moved t a h2))
  cases h with
  | call t c hp h => exact .call _ t c hp h
  | lock t c hp h => exact .lock _ t c hp h
  | refuse t c hp hk _ => exact bad t (.user .idle) false rfl (by rw [hp]; intro h; cases h) (by rw [hp]; simp [next, hk])
  | pass t c hp _ =>
    by_cases hk : P.kind = .text
    · exact bad t (.user (.writeDeadline c)) false rfl (by rw [hp]; intro h; cases h) (by rw [hp]; simp [next, hk])
    · exact .pass _ t c hp fun h => absurd h hk
  | writeDeadlineNil t c _ _ _ => cases hc
  | writeDeadline t c hp ht _ => exact bad t (.user (.readDeadline c)) false rfl (by rw [hp]; intro h; cases h) (by rw [hp]; simp [next, ht])
  | readDeadlineNil t c _ _ => cases hc
  | readDeadline t c w hp _ _ => exact bad t (.user (.writing c w)) false rfl (by rw [hp]; intro h; cases h) (by rw [hp]; simp [next])
  | noDeadline t c w hp h1 h2 => exact .noDeadline _ t c w hp h1 h2
  | unencodable t c e hp h =>
    rcases hp with hp | ⟨hp, _⟩
    · exact .unencodable _ t c e (.inl hp) h
    · exact bad t (.user .idle) false rfl (by rw [hp]; intro h; cases h) (by rw [hp]; simp [next])
  | unencodablePanic t c hp h =>
    rcases hp with hp | ⟨hp, _⟩
    · exact .unencodablePanic _ t c (.inl hp) h
    · exact bad t (.user .idle) false rfl (by rw [hp]; intro h; cases h) (by rw [hp]; simp [next])
  | write t c x y hp h1 h2 => exact .write _ t c x y hp h1 h2
  | writeFails t c x hp h => exact .writeFails _ t c x hp h
  | written t c hp h => exact .written _ t c hp h
  | arrive g x y h1 h2 h3 h4 => exact .arrive _ g x y h1 h2 h3 h4
  | hangUp g h => exact .hangUp _ g h
  | read t c hp h => exact .read _ t c hp h
  | readFails t c hp h1 h2 => exact .readFails _ t c hp h1 h2
  | readTimeout t c hp h1 h2 h3 => exact .readTimeout _ t c hp h1 h2 h3
  | callClose t hp h => exact .callClose _ t hp h
  | closeAgain t hp h1 h2 => exact .closeAgain _ t hp h1 h2
  | closeGo t hp h => exact .closeGo _ t hp h
  | closeRawNil t hp h => cases hc
  | closeRaw t g hp h =>
    exact bad t (.user (if P.kind = .text then .clearRaw else .idle)) false rfl
      (by rw [hp]; intro h; injection h with h; split at h <;> cases h) (by rw [hp]; simp [next])
  | clearRaw t hp => exact bad t (.user .closeChan) true rfl (by rw [hp]; intro h; cases h) (by rw [hp]; simp [next])
  | closeChanPanic t hp h => cases hc
  | closeChan t hp h1 h2 => exact .closeChan _ t hp h1 h2
  | clearChan t hp => exact .clearChan _ t hp
  | callReconnect t hp h => exact .callReconnect _ t hp h
  | lockReconnect t hp h => exact .lockReconnect _ t hp h
  | noRaw t hp h => exact bad t .dial false rfl (by rw [hp]; intro h; cases h) (by rw [hp]; simp [next])
  | shut t g hp h1 h2 => exact bad t .dial false rfl (by rw [hp]; intro h; cases h) (by rw [hp]; simp [next])
  | shutFails t g hp h1 h2 => exact bad t (.user .idle) false rfl (by rw [hp]; intro h; cases h) (by rw [hp]; simp [next])
  | dial t hp => exact .dial _ t hp
  | dialFails t hp => exact .dialFails _ t hp
  | setRaw t g hp => exact bad t (.setConn g) true rfl (by rw [hp]; intro h; cases h) (by rw [hp]; simp [next])
  | setConn t g hp => exact .setConn _ t g hp

/-- **C72**: the same for `closeCh`. -/
theorem C72_reads_closeCh (P : Params T) (s s' : State T) (h : Step P s s') (hc : s'.crashed = false)
    (hn : ∀ t w, s'.pc t ≠ s.pc t → ⟨.closeCh, w⟩ ∉ next P s (s.pc t)) (r : Bool) :
    Step P { s with closeCh := r } { s' with closeCh := r } := by
  have moved : ∀ (t : T) (a : At), a ≠ s.pc t → (s.goto t a).pc t ≠ s.pc t := by
    intro t a ha
    rw [Reconn.goto_pc, if_pos rfl]; exact ha
  have bad : ∀ (t : T) (a : At) (w : Bool), s'.pc t = (s.goto t a).pc t → a ≠ s.pc t → ⟨.closeCh, w⟩ ∈ next P s (s.pc t) →
      Step P { s with closeCh := r } { s' with closeCh := r } := by
    intro t a w h1 h2 h3
    exact absurd h3 (hn t w (by rw [h1]; exact moved t a h2))
  cases h with
  | call t c hp h => exact .call _ t c hp h
  | lock t c hp h => exact .lock _ t c hp h
  | refuse t c hp hk h => exact .refuse _ t c hp hk h
  | pass t c hp h => exact .pass _ t c hp h
  | writeDeadlineNil t c _ _ _ => cases hc
  | writeDeadline t c hp ht h => exact .writeDeadline _ t c hp ht h
  | readDeadlineNil t c _ _ => cases hc
  | readDeadline t c w hp h1 h2 => exact .readDeadline _ t c w hp h1 h2
  | noDeadline t c w hp h1 h2 => exact .noDeadline _ t c w hp h1 h2
  | unencodable t c e hp h => exact .unencodable _ t c e hp h
  | unencodablePanic t c hp h => exact .unencodablePanic _ t c hp h
  | write t c x y hp h1 h2 => exact .write _ t c x y hp h1 h2
  | writeFails t c x hp h => exact .writeFails _ t c x hp h
  | written t c hp h => exact .written _ t c hp h
  | arrive g x y h1 h2 h3 h4 => exact .arrive _ g x y h1 h2 h3 h4
  | hangUp g h => exact .hangUp _ g h
  | read t c hp h => exact .read _ t c hp h
  | readFails t c hp h1 h2 => exact .readFails _ t c hp h1 h2
  | readTimeout t c hp h1 h2 h3 => exact .readTimeout _ t c hp h1 h2 h3
  | callClose t hp h => exact .callClose _ t hp h
  | closeAgain t hp hk h2 => exact bad t (.user .idle) false rfl (by rw [hp]; intro h; cases h) (by rw [hp]; simp [next, hk])
  | closeGo t hp h =>
    by_cases hk : P.kind = .text
    · exact bad t (.user .closeRaw) false rfl (by rw [hp]; intro h; cases h) (by rw [hp]; simp [next, hk])
    · exact .closeGo _ t hp fun h => absurd h hk
  | closeRawNil t hp h => cases hc
  | closeRaw t g hp h => exact .closeRaw _ t g hp h
  | clearRaw t hp => exact .clearRaw _ t hp
  | closeChanPanic t hp h => cases hc
  | closeChan t hp h1 h2 => exact bad t (.user .clearChan) false rfl (by rw [hp]; intro h; cases h) (by rw [hp]; simp [next])
  | clearChan t hp => exact bad t (.user .idle) true rfl (by rw [hp]; intro h; cases h) (by rw [hp]; simp [next])
  | callReconnect t hp h => exact .callReconnect _ t hp h
  | lockReconnect t hp h => exact .lockReconnect _ t hp h
  | noRaw t hp h => exact .noRaw _ t hp h
  | shut t g hp h1 h2 => exact .shut _ t g hp h1 h2
  | shutFails t g hp h1 h2 => exact .shutFails _ t g hp h1 h2
  | dial t hp => exact .dial _ t hp
  | dialFails t hp => exact .dialFails _ t hp
  | setRaw t g hp => exact .setRaw _ t g hp
  | setConn t g hp => exact .setConn _ t g hp

/-- **C72**: and for `conn` (a write of no bytes is not a step here). -/
theorem C72_reads_conn (P : Params T) (s s' : State T) (h : Step P s s') (hc : s'.crashed = false) (hne : s' ≠ s)
    (hn : ∀ t w, s'.pc t ≠ s.pc t → ⟨.conn, w⟩ ∉ next P s (s.pc t)) (r : Nat) :
    Step P { s with conn := r } { s' with conn := r } := by
  have moved : ∀ (t : T) (a : At), a ≠ s.pc t → (s.goto t a).pc t ≠ s.pc t := by
    intro t a ha
    rw [Reconn.goto_pc, if_pos rfl]; exact ha
  have bad : ∀ (t : T) (a : At) (w : Bool), s'.pc t = (s.goto t a).pc t → a ≠ s.pc t → ⟨.conn, w⟩ ∈ next P s (s.pc t) →
      Step P { s with conn := r } { s' with conn := r } := by
    intro t a w h1 h2 h3
    exact absurd h3 (hn t w (by rw [h1]; exact moved t a h2))
  cases h with
  | call t c hp h => exact .call _ t c hp h
  | lock t c hp h => exact .lock _ t c hp h
  | refuse t c hp hk h => exact .refuse _ t c hp hk h
  | pass t c hp h => exact .pass _ t c hp h
  | writeDeadlineNil t c _ _ _ => cases hc
  | writeDeadline t c hp ht h => exact .writeDeadline _ t c hp ht h
  | readDeadlineNil t c _ _ => cases hc
  | readDeadline t c w hp h1 h2 => exact .readDeadline _ t c w hp h1 h2
  | noDeadline t c w hp h1 h2 => exact .noDeadline _ t c w hp h1 h2
  | unencodable t c e hp h => exact .unencodable _ t c e hp h
  | unencodablePanic t c hp h => exact .unencodablePanic _ t c hp h
  | write t c x y hp h1 h2 =>
    cases x with
    | nil =>
      refine absurd ?_ hne
      have e1 : (s.goto t (.user (.writing c y))).pc = s.pc := by
        funext u
        rw [Reconn.goto_pc]
        split
        · rename_i hu; rw [hu, hp]; rfl
        · rfl
      have e2 : ((s.goto t (.user (.writing c y))).setConn s.conn { s.cur with sent := s.cur.sent ++ [] }).conns = s.conns := by
        funext k
        show (if k = s.conn then { s.cur with sent := s.cur.sent ++ [] } else s.conns k) = _
        split
        · rename_i hk; rw [hk, List.append_nil]; rfl
        · rfl
      exact (congr (congrArg (fun p q => ({ s with pc := p, conns := q } : State T)) e1) e2)
    | cons b x =>
      refine bad t (.user (.writing c y)) false rfl ?_ (by rw [hp]; simp [next])
      rw [hp]
      intro hh
      injection hh with hh
      injection hh with _ hh
      have := congrArg List.length hh
      simp at this
      omega
  | writeFails t c x hp h => exact bad t (.user .idle) false rfl (by rw [hp]; intro h; cases h) (by rw [hp]; simp [next])
  | written t c hp h => exact bad t (.user (.reading c)) false rfl (by rw [hp]; intro h; cases h) (by rw [hp]; simp [next])
  | arrive g x y h1 h2 h3 h4 => exact .arrive _ g x y h1 h2 h3 h4
  | hangUp g h => exact .hangUp _ g h
  | read t c hp h => exact bad t (.user .idle) false rfl (by rw [hp]; intro h; cases h) (by rw [hp]; simp [next])
  | readFails t c hp h1 h2 => exact bad t (.user .idle) false rfl (by rw [hp]; intro h; cases h) (by rw [hp]; simp [next])
  | readTimeout t c hp h1 h2 h3 => exact bad t (.user .idle) false rfl (by rw [hp]; intro h; cases h) (by rw [hp]; simp [next])
  | callClose t hp h => exact .callClose _ t hp h
  | closeAgain t hp h1 h2 => exact .closeAgain _ t hp h1 h2
  | closeGo t hp h => exact .closeGo _ t hp h
  | closeRawNil t hp h => cases hc
  | closeRaw t g hp h => exact .closeRaw _ t g hp h
  | clearRaw t hp => exact .clearRaw _ t hp
  | closeChanPanic t hp h => cases hc
  | closeChan t hp h1 h2 => exact .closeChan _ t hp h1 h2
  | clearChan t hp => exact .clearChan _ t hp
  | callReconnect t hp h => exact .callReconnect _ t hp h
  | lockReconnect t hp h => exact .lockReconnect _ t hp h
  | noRaw t hp h => exact .noRaw _ t hp h
  | shut t g hp h1 h2 => exact .shut _ t g hp h1 h2
  | shutFails t g hp h1 h2 => exact .shutFails _ t g hp h1 h2
  | dial t hp => exact .dial _ t hp
  | dialFails t hp => exact .dialFails _ t hp
  | setRaw t g hp => exact .setRaw _ t g hp
  | setConn t g hp => exact bad t (.user .idle) true rfl (by rw [hp]; intro h; cases h) (by rw [hp]; simp [next])

end Race
end Verif
