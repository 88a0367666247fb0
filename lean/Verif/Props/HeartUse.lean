import Verif.Props.Heart
/-!
C71: what the heartbeat does to a client in the end.
-/

namespace Verif
namespace Reconn
open Spec
open Life (Kind errClosed errAlready)

variable {T : Type} [DecidableEq T]

/-- Inside Reconnect, or about to enter it. -/
def At.redial : At → Bool
  | .user _ => false
  | _ => true

theorem rec_step {P : Params T} {s s' : State T} (hs : Step P s s') (t : T) (h : (s'.pc t).redial = true) :
    (s.pc t).redial = true ∨ P.reconnectors t := by
  have key : ∀ {u : T} {a : At}, (a.redial = true → (s.pc u).redial = true ∨ P.reconnectors u) →
      s'.pc t = (if t = u then a else s.pc t) → (s.pc t).redial = true ∨ P.reconnectors t := by
    intro u a ha he
    rw [he] at h
    by_cases htu : t = u
    · rw [if_pos htu] at h; rw [htu]; exact ha h
    · rw [if_neg htu] at h; exact .inl h
  cases hs with
  | callReconnect u hp hr => exact key (u := u) (fun _ => .inr hr) rfl
  | lockReconnect u hp _ => exact key (u := u) (fun _ => .inl (by rw [hp]; rfl)) rfl
  | noRaw u hp _ => exact key (u := u) (fun _ => .inl (by rw [hp]; rfl)) rfl
  | shut u g hp _ _ => exact key (u := u) (a := .dial) (fun _ => .inl (by rw [hp]; rfl)) rfl
  | dial u hp => exact key (u := u) (fun _ => .inl (by rw [hp]; rfl)) rfl
  | setRaw u g hp => exact key (u := u) (fun _ => .inl (by rw [hp]; rfl)) rfl
  | call u _ _ _ => exact key (u := u) (fun hh => by cases hh) rfl
  | lock u _ _ _ => exact key (u := u) (fun hh => by cases hh) rfl
  | refuse u _ _ _ _ => exact key (u := u) (a := .user .idle) (fun hh => by cases hh) rfl
  | pass u _ _ _ => exact key (u := u) (fun hh => by cases hh) rfl
  | writeDeadlineNil u _ _ _ _ => exact .inl h
  | writeDeadline u _ _ _ _ => exact key (u := u) (fun hh => by cases hh) rfl
  | readDeadlineNil u _ _ _ => exact .inl h
  | readDeadline u _ _ _ _ _ => exact key (u := u) (fun hh => by cases hh) rfl
  | noDeadline u _ _ _ _ _ => exact key (u := u) (fun hh => by cases hh) rfl
  | unencodable u _ _ _ _ => exact key (u := u) (a := .user .idle) (fun hh => by cases hh) rfl
  | unencodablePanic u _ _ _ => exact key (u := u) (a := .user .idle) (fun hh => by cases hh) rfl
  | write u c x y _ _ _ => exact key (u := u) (a := .user (.writing c y)) (fun hh => by cases hh) rfl
  | writeFails u _ _ _ _ => exact key (u := u) (a := .user .idle) (fun hh => by cases hh) rfl
  | written u _ _ _ => exact key (u := u) (fun hh => by cases hh) rfl
  | arrive _ _ _ _ _ _ _ => exact .inl h
  | hangUp _ _ => exact .inl h
  | read u _ _ _ => exact key (u := u) (a := .user .idle) (fun hh => by cases hh) rfl
  | readFails u _ _ _ _ => exact key (u := u) (a := .user .idle) (fun hh => by cases hh) rfl
  | readTimeout u _ _ _ _ _ => exact key (u := u) (a := .user .idle) (fun hh => by cases hh) rfl
  | callClose u _ _ => exact key (u := u) (fun hh => by cases hh) rfl
  | closeAgain u _ _ _ => exact key (u := u) (fun hh => by cases hh) rfl
  | closeGo u _ _ => exact key (u := u) (fun hh => by cases hh) rfl
  | closeRawNil u _ _ => exact .inl h
  | closeRaw u g _ _ => exact key (u := u) (a := .user (if P.kind = .text then .clearRaw else .idle)) (fun hh => by cases hh) rfl
  | clearRaw u _ => exact key (u := u) (a := .user .closeChan) (fun hh => by cases hh) rfl
  | closeChanPanic u _ _ => exact .inl h
  | closeChan u _ _ _ => exact key (u := u) (a := .user .clearChan) (fun hh => by cases hh) rfl
  | clearChan u _ => exact key (u := u) (a := .user .idle) (fun hh => by cases hh) rfl
  | shutFails u g hp _ _ => exact key (u := u) (a := .user .idle) (fun hh => by cases hh) rfl
  | dialFails u hp => exact key (u := u) (a := .user .idle) (fun hh => by cases hh) rfl
  | setConn u g hp => exact key (u := u) (a := .user .idle) (fun hh => by cases hh) rfl

/-- While nobody is in Reconnect, the connection stays the same. -/
theorem conn_step {P : Params T} {s s' : State T} (hs : Step P s s') (h : ∀ t, (s.pc t).redial = false) :
    s'.conn = s.conn ∧ s'.dialled = s.dialled := by
  have bad : ∀ {t}, (s.pc t).redial = true → s'.conn = s.conn ∧ s'.dialled = s.dialled := by
    intro t ht; rw [h t] at ht; cases ht
  cases hs with
  | dial u hp => exact bad (t := u) (by rw [hp]; rfl)
  | setConn u g hp => exact bad (t := u) (by rw [hp]; rfl)
  | _ => exact ⟨rfl, rfl⟩

/-- A closed connection stays closed. -/
theorem closed_step {P : Params T} {s s' : State T} (hs : Step P s s') (k : Nat) (h : (s.conns k).isOpen = false) :
    (s'.conns k).isOpen = false := by
  have hset : ∀ (q : State T) (g : Nat) (c : Conn), (q.conns k).isOpen = false → (g = k → c.isOpen = false) →
      ((q.setConn g c).conns k).isOpen = false := by
    intro q g c hq hc
    show (if k = g then c else q.conns k).isOpen = _
    split
    · rename_i hk; exact hc hk.symm
    · exact hq
  cases hs with
  | write u c x y _ _ _ => exact hset _ _ _ h (by intro hh; rw [← hh] at h; exact h)
  | writeFails u _ _ _ _ => exact hset _ _ _ h (by intro hh; rw [← hh] at h; exact h)
  | arrive g _ _ _ _ _ _ => exact hset _ _ _ h (by intro hh; rw [← hh] at h; exact h)
  | hangUp g _ => exact hset _ _ _ h (by intro hh; rw [← hh] at h; exact h)
  | read u _ _ _ => exact hset _ _ _ h (by intro hh; rw [← hh] at h; exact h)
  | readFails u _ _ _ _ => exact hset _ _ _ h (by intro hh; rw [← hh] at h; exact h)
  | readTimeout u _ _ _ _ _ => exact hset _ _ _ h (by intro hh; rw [← hh] at h; exact h)
  | closeRaw u g _ _ => exact hset _ _ _ h (fun _ => rfl)
  | shut u g hp _ _ => exact hset _ _ _ h (fun _ => rfl)
  | _ => exact h

/-- Close of a meta or binary client ends with its connection closed. -/
theorem closing_step {P : Params T} (hk : P.kind ≠ .text) {s s' : State T} (hn : NotText s) (hs : Step P s s') (t : T)
    (h : (s.pc t).closing = true) :
    (s'.pc t).closing = true ∨ (s'.pc t = .user .idle ∧ ∃ g, s.raw = some g ∧ (s'.conns g).isOpen = false) := by
  have keep : s'.pc t = s.pc t → (s'.pc t).closing = true ∨ (s'.pc t = .user .idle ∧ ∃ g, s.raw = some g ∧ (s'.conns g).isOpen = false) := by
    intro he; left; rw [he]; exact h
  have other : ∀ {u : T} {a : At}, (s.pc u).closing = false → s'.pc t = (if t = u then a else s.pc t) →
      (s'.pc t).closing = true ∨ (s'.pc t = .user .idle ∧ ∃ g, s.raw = some g ∧ (s'.conns g).isOpen = false) := by
    intro u a hu he
    by_cases htu : t = u
    · rw [htu, hu] at h; cases h
    · rw [if_neg htu] at he; exact keep he
  have bad : ∀ {u}, (s.pc u).textOnly = true → (s'.pc t).closing = true ∨ (s'.pc t = .user .idle ∧ ∃ g, s.raw = some g ∧ (s'.conns g).isOpen = false) := by
    intro u hu; rw [hn.pc u] at hu; cases hu
  cases hs with
  | callReconnect u hp hr => exact other (u := u) (by rw [hp]; rfl) rfl
  | lockReconnect u hp _ => exact other (u := u) (by rw [hp]; rfl) rfl
  | noRaw u hp _ => exact other (u := u) (by rw [hp]; rfl) rfl
  | shut u g hp _ _ => exact other (u := u) (a := .dial) (by rw [hp]; rfl) rfl
  | dial u hp => exact other (u := u) (by rw [hp]; rfl) rfl
  | setRaw u g hp => exact other (u := u) (by rw [hp]; rfl) rfl
  | call u _ hp _ => exact other (u := u) (by rw [hp]; rfl) rfl
  | lock u _ hp _ => exact other (u := u) (by rw [hp]; rfl) rfl
  | refuse u _ hp _ _ => exact other (u := u) (a := .user .idle) (by rw [hp]; rfl) rfl
  | pass u _ hp _ => exact other (u := u) (by rw [hp]; rfl) rfl
  | writeDeadlineNil u _ _ _ _ => exact keep rfl
  | writeDeadline u _ hp _ _ => exact other (u := u) (by rw [hp]; rfl) rfl
  | readDeadlineNil u _ _ _ => exact keep rfl
  | readDeadline u _ _ hp _ _ => exact other (u := u) (by rw [hp]; rfl) rfl
  | noDeadline u _ _ hp _ _ => exact other (u := u) (by rw [hp]; rfl) rfl
  | unencodable u _ _ hp _ => exact other (u := u) (a := .user .idle) (by rcases hp with ⟨hp, _⟩ | ⟨hp, _⟩ <;> rw [hp] <;> rfl) rfl
  | unencodablePanic u _ hp _ => exact other (u := u) (a := .user .idle) (by rcases hp with ⟨hp, _⟩ | ⟨hp, _⟩ <;> rw [hp] <;> rfl) rfl
  | write u c x y hp _ _ => exact other (u := u) (a := .user (.writing c y)) (by rw [hp]; rfl) rfl
  | writeFails u _ _ hp _ => exact other (u := u) (a := .user .idle) (by rw [hp]; rfl) rfl
  | written u _ hp _ => exact other (u := u) (by rw [hp]; rfl) rfl
  | arrive _ _ _ _ _ _ _ => exact keep rfl
  | hangUp _ _ => exact keep rfl
  | read u _ hp _ => exact other (u := u) (a := .user .idle) (by rw [hp]; rfl) rfl
  | readFails u _ hp _ _ => exact other (u := u) (a := .user .idle) (by rw [hp]; rfl) rfl
  | readTimeout u _ hp _ _ _ => exact other (u := u) (a := .user .idle) (by rw [hp]; rfl) rfl
  | callClose u hp _ => exact other (u := u) (by rw [hp]; rfl) rfl
  | closeAgain u _ hx _ => exact absurd hx hk
  | closeGo u _ _ =>
    by_cases htu : t = u
    · left
      show (if t = u then (.user .closeRaw : At) else s.pc t).closing = true
      rw [if_pos htu]; rfl
    · refine keep ?_
      show (if t = u then (.user .closeRaw : At) else s.pc t) = _
      rw [if_neg htu]
  | closeRawNil u _ _ => exact keep rfl
  | closeRaw u g _ hr =>
    by_cases htu : t = u
    · right
      refine ⟨?_, g, hr, ?_⟩
      · show (if t = u then (.user (if P.kind = .text then .clearRaw else .idle) : At) else s.pc t) = _
        rw [if_pos htu, if_neg hk]
      · show (if g = g then { s.conns g with isOpen := false } else s.conns g).isOpen = false
        rw [if_pos rfl]
    · refine keep ?_
      show (if t = u then (.user (if P.kind = .text then .clearRaw else .idle) : At) else s.pc t) = _
      rw [if_neg htu]
  | clearRaw u hp => exact bad (u := u) (by rw [hp]; rfl)
  | closeChanPanic u _ _ => exact keep rfl
  | closeChan u hp _ _ => exact bad (u := u) (by rw [hp]; rfl)
  | clearChan u hp => exact bad (u := u) (by rw [hp]; rfl)
  | shutFails u g hp _ _ => exact other (u := u) (a := .user .idle) (by rw [hp]; rfl) rfl
  | dialFails u hp => exact other (u := u) (a := .user .idle) (by rw [hp]; rfl) rfl
  | setConn u g hp => exact other (u := u) (a := .user .idle) (by rw [hp]; rfl) rfl

/-- Close has cleared `s.closeCh` and somebody has reconnected since. -/
structure Undone (g : Nat) (s : State T) : Prop where
  closeCh : s.closeCh = false
  raw : s.raw = some g
  conn : s.conn = g
  isOpen : (s.conns g).isOpen = true
  pc : ∀ t, (s.pc t).redial = false ∧ (s.pc t = .user .close ∨ (s.pc t).closing = false)

theorem undone_step {P : Params T} (hk : P.kind = .text) {g : Nat} {s s' : State T} (h : Undone g s) (hs : Step P s s')
    (hr : ∀ t, (s'.pc t).redial = false) : Undone g s' := by
  have bad : ∀ {t}, ((s.pc t).redial = true ∨ s.pc t ≠ .user .close ∧ (s.pc t).closing = true) → Undone g s' := by
    intro t ht
    obtain ⟨h1, h2⟩ := h.pc t
    rcases ht with ht | ⟨ht, hc⟩
    · rw [h1] at ht; cases ht
    · rcases h2 with h2 | h2
      · exact absurd h2 ht
      · rw [h2] at hc; cases hc
  have hset : ∀ (q : State T) (j : Nat) (c : Conn), (q.conns g).isOpen = true → (j = g → c.isOpen = true) →
      ((q.setConn j c).conns g).isOpen = true := by
    intro q j c hq hc
    show (if g = j then c else q.conns g).isOpen = _
    split
    · rename_i hk; exact hc hk.symm
    · exact hq
  have hcur : s.cur.isOpen = true := by
    show (s.conns s.conn).isOpen = true
    rw [h.conn]; exact h.isOpen
  have keep : ∀ {u : T} {a : At}, s'.pc = (s.goto u a).pc → (a = .user .close ∨ a.closing = false) → s'.closeCh = s.closeCh →
      s'.raw = s.raw → s'.conn = s.conn → (s'.conns g).isOpen = true → Undone g s' := by
    intro u a hp ha h1 h2 h3 h4
    refine ⟨h1.trans h.closeCh, h2.trans h.raw, h3.trans h.conn, h4, fun t => ⟨hr t, ?_⟩⟩
    rw [hp, goto_pc]
    split
    · exact ha
    · exact (h.pc t).2
  cases hs with
  | callReconnect u hp _ =>
    have := hr u
    rw [show (s.goto u .called).pc u = .called from if_pos rfl] at this
    cases this
  | lockReconnect u hp _ => exact bad (t := u) (.inl (by rw [hp]; rfl))
  | noRaw u hp _ => exact bad (t := u) (.inl (by rw [hp]; rfl))
  | shut u g hp _ _ => exact bad (t := u) (.inl (by rw [hp]; rfl))
  | dial u hp => exact bad (t := u) (.inl (by rw [hp]; rfl))
  | setRaw u g hp => exact bad (t := u) (.inl (by rw [hp]; rfl))
  | shutFails u g hp _ _ => exact bad (t := u) (.inl (by rw [hp]; rfl))
  | dialFails u hp => exact bad (t := u) (.inl (by rw [hp]; rfl))
  | setConn u g hp => exact bad (t := u) (.inl (by rw [hp]; rfl))
  | call u c _ _ => exact keep (u := u) (a := .user (.called c)) rfl (.inr rfl) rfl rfl rfl h.isOpen
  | lock u c _ _ => exact keep (u := u) (a := .user (.locked c)) rfl (.inr rfl) rfl rfl rfl h.isOpen
  | refuse u c _ _ _ => exact keep (u := u) (a := .user .idle) rfl (.inr rfl) rfl rfl rfl h.isOpen
  | pass u c _ _ => exact keep (u := u) (a := .user (.writeDeadline c)) rfl (.inr rfl) rfl rfl rfl h.isOpen
  | writeDeadlineNil u _ _ _ _ => exact ⟨h.closeCh, h.raw, h.conn, h.isOpen, h.pc⟩
  | writeDeadline u c _ _ _ => exact keep (u := u) (a := .user (.readDeadline c)) rfl (.inr rfl) rfl rfl rfl h.isOpen
  | readDeadlineNil u _ _ _ => exact ⟨h.closeCh, h.raw, h.conn, h.isOpen, h.pc⟩
  | readDeadline u c w _ _ _ => exact keep (u := u) (a := .user (.writing c w)) rfl (.inr rfl) rfl rfl rfl h.isOpen
  | noDeadline u c w _ _ _ => exact keep (u := u) (a := .user (.writing c w)) rfl (.inr rfl) rfl rfl rfl h.isOpen
  | unencodable u c e _ _ => exact keep (u := u) (a := .user .idle) rfl (.inr rfl) rfl rfl rfl h.isOpen
  | unencodablePanic u c _ _ => exact keep (u := u) (a := .user .idle) rfl (.inr rfl) rfl rfl rfl h.isOpen
  | write u c x y _ _ _ => exact keep (u := u) (a := .user (.writing c y)) rfl (.inr rfl) rfl rfl rfl (hset _ _ _ h.isOpen fun _ => hcur)
  | writeFails u c x _ _ => exact keep (u := u) (a := .user .idle) rfl (.inr rfl) rfl rfl rfl (hset _ _ _ h.isOpen fun _ => hcur)
  | written u c _ _ => exact keep (u := u) (a := .user (.reading c)) rfl (.inr rfl) rfl rfl rfl h.isOpen
  | arrive j x y _ _ _ _ =>
    exact ⟨h.closeCh, h.raw, h.conn, hset s j { s.conns j with got := (s.conns j).got ++ x, inbox := (s.conns j).inbox ++ x }
      h.isOpen (by intro hh; subst hh; exact h.isOpen), h.pc⟩
  | hangUp j _ =>
    exact ⟨h.closeCh, h.raw, h.conn, hset s j { s.conns j with ended := true } h.isOpen (by intro hh; subst hh; exact h.isOpen), h.pc⟩
  | read u c _ _ => exact keep (u := u) (a := .user .idle) rfl (.inr rfl) rfl rfl rfl (hset _ _ _ h.isOpen fun _ => hcur)
  | readFails u c _ _ _ => exact keep (u := u) (a := .user .idle) rfl (.inr rfl) rfl rfl rfl (hset _ _ _ h.isOpen fun _ => hcur)
  | readTimeout u c _ _ _ _ => exact keep (u := u) (a := .user .idle) rfl (.inr rfl) rfl rfl rfl (hset _ _ _ h.isOpen fun _ => hcur)
  | callClose u _ _ => exact keep (u := u) (a := .user .close) rfl (.inl rfl) rfl rfl rfl h.isOpen
  | closeAgain u _ _ _ => exact keep (u := u) (a := .user .idle) rfl (.inr rfl) rfl rfl rfl h.isOpen
  | closeGo u _ hc => have := hc hk; rw [h.closeCh] at this; cases this
  | closeRawNil u _ _ => exact ⟨h.closeCh, h.raw, h.conn, h.isOpen, h.pc⟩
  | closeRaw u _ hp _ => exact bad (t := u) (.inr (by rw [hp]; exact ⟨(by intro hh; cases hh), rfl⟩))
  | clearRaw u hp => exact bad (t := u) (.inr (by rw [hp]; exact ⟨(by intro hh; cases hh), rfl⟩))
  | closeChanPanic u hp _ => exact bad (t := u) (.inr (by rw [hp]; exact ⟨(by intro hh; cases hh), rfl⟩))
  | closeChan u hp _ _ => exact bad (t := u) (.inr (by rw [hp]; exact ⟨(by intro hh; cases hh), rfl⟩))
  | clearChan u hp => exact bad (t := u) (.inr (by rw [hp]; exact ⟨(by intro hh; cases hh), rfl⟩))

end Reconn

namespace Heart
open Spec
open Life (Kind errClosed errAlready)
open Sched (ClientCall)

variable {T : Type} [DecidableEq T]

/-! ## A heartbeat that only closes -/

theorem no_redial {P : Reconn.Params T} (hr : ∀ t, ¬ P.reconnectors t) {s : Reconn.State T} (h : Reconn.Reach P s) :
    (∀ t, (s.pc t).redial = false) ∧ s.conn = 0 := by
  induction h with
  | init => exact ⟨fun _ => rfl, rfl⟩
  | @step s s' _ hs ih =>
    refine ⟨fun t => ?_, (Reconn.conn_step hs ih.1).1.trans ih.2⟩
    cases hh : (s'.pc t).redial with
    | false => rfl
    | true =>
      rcases Reconn.rec_step hs t hh with h | h
      · rw [ih.1 t] at h; cases h
      · exact absurd h (hr t)

theorem raw_zero {P : Reconn.Params T} (hk : P.kind ≠ .text) (hr : ∀ t, ¬ P.reconnectors t) {s : Reconn.State T}
    (h : Reconn.Reach P s) : s.raw = some 0 := by
  obtain ⟨h1, h2⟩ := no_redial hr h
  rw [← h2]
  refine (Reconn.notText hk h).inUse fun t => ?_
  have := h1 t
  revert this
  cases s.pc t <;> simp [Reconn.At.redial, Reconn.At.placed]

theorem gave_up {P : Reconn.Params (Option T)} {auto : Bool} (ha : Allows P auto) (hk : P.kind ≠ .text)
    (hr : ∀ t, ¬ P.reconnectors t) {s : State T} (h : Reach P auto s) :
    (s.hb = .closing → (s.base.pc none).closing = true) ∧ (s.gaveUp = true → (s.base.conns 0).isOpen = false) := by
  induction h with
  | init => exact ⟨fun hh => (by cases hh), fun hh => (by cases hh)⟩
  | @step s s' hre hs ih =>
    have hb0 := C71_embeds P auto ha _ hre
    have hn := Reconn.notText hk hb0
    have go : ∀ {b}, Reconn.Step P s.base b → s.gaveUp = true → (b.conns 0).isOpen = false :=
      fun hb hg => Reconn.closed_step hb 0 (ih.2 hg)
    cases hs with
    | fire _ => exact ih
    | world b hb hp => exact ⟨fun hh => by show (b.pc none).closing = true; rw [hp]; exact ih.1 hh, go hb⟩
    | quit _ _ => exact ⟨fun hh => (by cases hh), ih.2⟩
    | tick c _ _ _ => exact ⟨fun hh => (by cases hh), ih.2⟩
    | inside b hb _ _ hni =>
      refine ⟨fun hh => ?_, go hb⟩
      rcases Reconn.closing_step hk hn hb none (ih.1 hh) with h | ⟨h, _⟩
      · exact h
      · exact absurd h hni
    | probed b e _ hb _ _ _ =>
      refine ⟨fun hh => ?_, go hb⟩
      have h1 := after_resting auto e
      rw [show after auto e = .closing from hh] at h1; cases h1
    | retry _ => exact ⟨fun hh => (by cases hh), ih.2⟩
    | reconnected b ok _ hb _ _ _ => exact ⟨fun hh => (by cases ok <;> cases hh), go hb⟩
    | giveUp _ => exact ⟨fun _ => rfl, ih.2⟩
    | closed b hh hb _ hi =>
      refine ⟨fun hh => (by cases hh), fun _ => ?_⟩
      rcases Reconn.closing_step hk hn hb none (ih.1 hh) with h | ⟨_, g, h1, h2⟩
      · rw [hi] at h; cases h
      · rw [raw_zero hk hr hb0] at h1
        rw [Option.some.inj h1]; exact h2

theorem base_later {P : Reconn.Params (Option T)} {auto : Bool} (ha : Allows P auto) {s s' : State T} (h : Reach P auto s)
    (hl : Later P auto s s') : Reach P auto s' ∧ Spec.Later P s.base s'.base := by
  induction hl with
  | refl => exact ⟨h, .refl⟩
  | step _ hs ih =>
    refine ⟨ih.1.step hs, ?_⟩
    rcases base_step ha ih.1 hs with hb | hb
    · rw [hb]; exact ih.2
    · exact ih.2.step hb

/-- **C71**: EnableHeartbeat alone, a meta or binary client, and a program that does not call Reconnect: once the probe
has failed and the heartbeat has closed the connection, the client is finished.  Its only connection is closed, and
after the operations then under way have returned no operation ever succeeds again. -/
theorem C71_give_up (P : Reconn.Params (Option T)) (ha : Allows P false) (hk : P.kind ≠ .text)
    (hr : ∀ t, ¬ P.reconnectors t) (hc : ∀ c, P.calls c → ClientCall P.kind c) (s : State T) (h : Reach P false s)
    (hg : s.gaveUp = true) :
    s.base.conn = 0 ∧ (s.base.conns 0).isOpen = false ∧
      (s.base.lock = none → ∀ s', Later P false s s' → ∃ new, s'.base.log = s.base.log ++ new ∧ ∀ e ∈ new, Failed e) := by
  have hb := C71_embeds P false ha s h
  have h0 := (no_redial hr hb).2
  have h1 := (gave_up ha hk hr h).2 hg
  refine ⟨h0, h1, fun hl s' hs => ?_⟩
  exact (Reconn.C71_shut_for_good P hk hc s.base hb hl (by rw [h0]; exact h1) s'.base (base_later ha h hs).2).2

/-! ## A heartbeat has nothing more to do after its only probe -/

/-- The heartbeat has made its probe and drawn its conclusions. -/
structure Settled (s : State T) : Prop where
  hb : s.hb = .select ∨ s.hb = .returned
  timer : s.timer = .drained

theorem settled_step {P : Reconn.Params (Option T)} {auto : Bool} {s s' : State T} (h : Reach P auto s) (hse : Settled s)
    (hs : Step P auto s s') :
    Settled s' ∧ (s'.base = s.base ∨ (Reconn.Step P s.base s'.base ∧ s'.base.pc none = .user .idle)) := by
  have hres : s.hb.resting = true := by rcases hse.hb with h | h <;> rw [h] <;> rfl
  have hidle := rests h hres
  have no : ∀ {a : At}, s.hb = a → a ≠ .select → a ≠ .returned →
      Settled s' ∧ (s'.base = s.base ∨ (Reconn.Step P s.base s'.base ∧ s'.base.pc none = .user .idle)) := by
    intro a ha h1 h2
    rcases hse.hb with h | h
    · exact absurd (ha.symm.trans h) h1
    · exact absurd (ha.symm.trans h) h2
  cases hs with
  | fire ht => rw [hse.timer] at ht; cases ht
  | world b hb hp => exact ⟨⟨hse.hb, hse.timer⟩, .inr ⟨hb, hp.trans hidle⟩⟩
  | quit _ _ => exact ⟨⟨.inr rfl, hse.timer⟩, .inl rfl⟩
  | tick c _ ht _ => rw [hse.timer] at ht; cases ht
  | inside b hb hp _ _ => exact absurd hidle hp
  | probed b e hh _ _ _ _ => exact no hh (by intro h; cases h) (by intro h; cases h)
  | retry hh => exact no hh (by intro h; cases h) (by intro h; cases h)
  | reconnected b ok hh _ _ _ _ => exact no hh (by intro h; cases h) (by intro h; cases h)
  | giveUp hh => exact no hh (by intro h; cases h) (by intro h; cases h)
  | closed b hh _ _ _ => exact no hh (by intro h; cases h) (by intro h; cases h)

/-- Goroutines that may not call Reconnect are not in it. -/
theorem users_redial {P : Reconn.Params (Option T)} {auto : Bool} (ha : Allows P auto) (hr : ∀ t, ¬ P.reconnectors (some t))
    {s : State T} (h : Reach P auto s) (t : T) : (s.base.pc (some t)).redial = false := by
  have hb := C71_embeds P auto ha s h
  clear h
  generalize s.base = b at hb
  induction hb with
  | init => rfl
  | @step q q' _ hs ih =>
    cases hh : (q'.pc (some t)).redial with
    | false => rfl
    | true =>
      rcases Reconn.rec_step hs (some t) hh with h | h
      · rw [ih] at h; cases h
      · exact absurd h (hr t)

theorem settled_redial {P : Reconn.Params (Option T)} {auto : Bool} (ha : Allows P auto) (hr : ∀ t, ¬ P.reconnectors (some t))
    {s : State T} (h : Reach P auto s) (hse : Settled s) : ∀ t, (s.base.pc t).redial = false := by
  intro t
  cases t with
  | some t => exact users_redial ha hr h t
  | none =>
    have : s.base.pc none = .user .idle := rests h (by rcases hse.hb with h | h <;> rw [h] <;> rfl)
    rw [this]; rfl

/-- **C71**: EnableHeartbeat and EnableAutoReconnect do not keep a client connected: once the heartbeat has made its one
probe and come to a conclusion, then in a program that does not call Reconnect itself no connection is ever dialled
again, whatever happens to the one in use. -/
theorem C71_no_second_reconnect (P : Reconn.Params (Option T)) (auto : Bool) (ha : Allows P auto)
    (hr : ∀ t, ¬ P.reconnectors (some t)) (s : State T) (h : Reach P auto s)
    (hb : s.hb = .select ∨ s.hb = .returned) (hp : s.probes = 1) (s' : State T) (hs : Later P auto s s') :
    s'.base.conn = s.base.conn ∧ s'.base.dialled = s.base.dialled ∧ s'.probes = 1 := by
  have ht : s.timer = .drained := by
    have key : ∀ {s : State T}, Reach P auto s → s.probes = (if s.timer = .drained then 1 else 0) := by
      intro s h
      induction h with
      | init => rfl
      | @step s s' _ hs ih =>
        cases hs with
        | fire ht => rw [ht] at ih; exact ih
        | tick c _ ht _ => rw [ht] at ih; show s.probes + 1 = 1; rw [ih]; rfl
        | _ => exact ih
    have := key h
    rw [hp] at this
    by_cases hd : s.timer = .drained
    · exact hd
    · rw [if_neg hd] at this; cases this
  suffices hh : (Reach P auto s' ∧ Settled s') ∧ s'.base.conn = s.base.conn ∧ s'.base.dialled = s.base.dialled ∧ s'.probes = 1 from hh.2
  induction hs with
  | refl => exact ⟨⟨h, hb, ht⟩, rfl, rfl, hp⟩
  | @step s1 s2 _ hst ih =>
    obtain ⟨⟨h1, h2⟩, h3, h4, h5⟩ := ih
    obtain ⟨h6, h7⟩ := settled_step h1 h2 hst
    have h8 : s2.probes = 1 := by
      cases hst with
      | tick c _ hti _ => rw [h2.timer] at hti; cases hti
      | _ => exact h5
    refine ⟨⟨h1.step hst, h6⟩, ?_⟩
    rcases h7 with h7 | ⟨h7, _⟩
    · rw [h7]; exact ⟨h3, h4, h8⟩
    · obtain ⟨h9, h10⟩ := Reconn.conn_step h7 (settled_redial ha hr h1 h2)
      exact ⟨h9.trans h3, h10.trans h4, h8⟩

/-! ## Close undone -/

theorem Later.start {P : Reconn.Params (Option T)} {auto : Bool} {s : State T} (_ : Reach P auto s) : Later P auto s s := .refl

theorem undone_later {P : Reconn.Params (Option T)} {auto : Bool} (hk : P.kind = .text) (ha : Allows P auto)
    (hr : ∀ t, ¬ P.reconnectors (some t)) {s : State T} (h : Reach P auto s) (hse : Settled s) {g : Nat}
    (hu : Reconn.Undone g s.base) (s' : State T) (hl : Later P auto s s') :
    s'.base.raw = some g ∧ s'.base.conn = g ∧ (s'.base.conns g).isOpen = true ∧ s'.base.closeCh = false := by
  suffices hh : (Reach P auto s' ∧ Settled s') ∧ Reconn.Undone g s'.base from ⟨hh.2.raw, hh.2.conn, hh.2.isOpen, hh.2.closeCh⟩
  induction hl with
  | refl => exact ⟨⟨h, hse⟩, hu⟩
  | step _ hst ih =>
    obtain ⟨⟨h1, h2⟩, h3⟩ := ih
    obtain ⟨h4, h5⟩ := settled_step h1 h2 hst
    refine ⟨⟨h1.step hst, h4⟩, ?_⟩
    rcases h5 with h5 | ⟨h5, _⟩
    · rw [h5]; exact h3
    · exact Reconn.undone_step hk h3 h5 (settled_redial ha hr (h1.step hst) h4)

/-- **C71**: EnableHeartbeat and EnableAutoReconnect on a text client can undo Close.  The program's only goroutine calls
Close, which succeeds, while the heartbeat's timer has fired: the probe fails because the client is closed, so the
heartbeat reconnects.  From then on the client is connected again, operations go to the server, and the connection will
not be closed whatever the program calls, Close included, as long as it does not itself call Reconnect. -/
theorem C71_close_undone (P : Reconn.Params (Option Unit)) (hk : P.kind = .text) (ha : Allows P true)
    (hcl : P.closers (some ())) (hr : ¬ P.reconnectors (some ())) :
    ∃ s₁ s₂, Reach P true s₁ ∧ s₁.base.raw = none ∧ s₁.base.closeCh = false ∧ s₁.base.pc (some ()) = .user .idle ∧
      Later P true s₁ s₂ ∧ s₂.base.log = [.closed (Text.version.map fun _ => .done), .reconnect true] ∧
      s₂.crashed = false ∧ s₂.base.crashed = false ∧
      ∀ s', Later P true s₂ s' → s'.base.raw = some 1 ∧ s'.base.conn = 1 ∧ (s'.base.conns 1).isOpen = true ∧
        s'.base.closeCh = false := by
  have hv : IsVersion P.kind (Text.version.map fun _ => .done) := by rw [hk]; exact .text
  have r0 : Reach P true (init : State Unit) := .init
  have r1 := r0.step (.fire _ rfl)
  have r2 := r1.step (.world _ _ (.callClose _ (some ()) rfl hcl) rfl)
  have r3 := r2.step (.world _ _ (.closeGo _ (some ()) rfl (fun _ => rfl)) rfl)
  have r4 := r3.step (.world _ _ (.closeRaw _ (some ()) 0 rfl rfl) rfl)
  rw [if_pos hk] at r4
  have r5 := r4.step (.world _ _ (.clearRaw _ (some ()) rfl) rfl)
  have r6 := r5.step (.world _ _ (.closeChan _ (some ()) rfl rfl rfl) rfl)
  have r7 := r6.step (.world _ _ (.clearChan _ (some ()) rfl) rfl)
  have l0 := Later.start r7
  have l1 := l0.step (.tick _ _ rfl rfl hv)
  have l2 := l1.step (.inside _ _ (.lock _ none _ rfl rfl) (by intro hh; cases hh) (by intro hh; cases hh) (by intro hh; cases hh))
  have l3 := l2.step (.probed _ _ _ rfl (.refuse _ none _ rfl hk rfl) (by intro hh; cases hh) rfl rfl)
  have l4 := l3.step (.retry _ rfl)
  have l5 := l4.step (.inside _ _ (.lockReconnect _ none rfl rfl) (by intro hh; cases hh) (by intro hh; cases hh) (by intro hh; cases hh))
  have l6 := l5.step (.inside _ _ (.noRaw _ none rfl rfl) (by intro hh; cases hh) (by intro hh; cases hh) (by intro hh; cases hh))
  have l7 := l6.step (.inside _ _ (.dial _ none rfl) (by intro hh; cases hh) (by intro hh; cases hh) (by intro hh; cases hh))
  have l8 := l7.step (.inside _ _ (.setRaw _ none 1 rfl) (by intro hh; cases hh) (by intro hh; cases hh) (by intro hh; cases hh))
  have l9 := l8.step (.reconnected _ _ true rfl (.setConn _ none 1 rfl) (by intro hh; cases hh) rfl rfl)
  have r9 := (base_later ha r7 l9).1
  refine ⟨_, _, r7, rfl, rfl, rfl, l9, rfl, rfl, rfl, ?_⟩
  have hrr : ∀ t : Unit, ¬ P.reconnectors (some t) := fun _ => hr
  refine undone_later hk ha hrr r9 ⟨.inl rfl, rfl⟩ ⟨rfl, rfl, rfl, rfl, ?_⟩
  intro t
  match t with
  | none => exact ⟨rfl, .inr rfl⟩
  | some () => exact ⟨rfl, .inr rfl⟩

/-! ## Concrete runs -/

/-- Every kind of client has a Version. -/
theorem version_exists (k : Kind) : ∃ c w, IsVersion k c ∧ c.wire = .ok w := by
  cases k with
  | text => exact ⟨_, _, .text, rfl⟩
  | metap => exact ⟨_, _, .metap, rfl⟩
  | binary => exact ⟨_, _, .binary {}, rfl⟩

/-- The server hangs up, and the probe of the heartbeat fails. -/
theorem probe_fails (P : Reconn.Params (Option T)) (auto : Bool) (ht : P.timeout = false) (c : Call Out) (w : Bytes)
    (hv : IsVersion P.kind c) (hw : c.wire = .ok w) :
    ∃ s : State T, Reach P auto s ∧ s.base.lock = none ∧ s.base.raw = some 0 ∧ s.base.conn = 0 ∧ s.base.dialled = 1 ∧
      s.base.closeCh = true ∧ (s.base.conns 0).isOpen = true ∧ (∀ t, s.base.pc t = .user .idle) ∧
      s.base.log = [.op c (.err .io)] ∧ s.probes = 1 ∧
      (s.base.conns 1).isOpen = true ∧ s.hb = (if auto then .retry else .giveUp) := by
  have r0 : Reach P auto (init : State T) := .init
  have r1 := r0.step (.world _ _ (.hangUp _ 0 (Nat.lt_succ_self 0)) rfl)
  have r2 := r1.step (.fire _ rfl)
  have r3 := r2.step (.tick _ c rfl rfl hv)
  have r4 := r3.step (.inside _ _ (.lock _ none c rfl rfl) (by intro hh; cases hh) (by intro hh; cases hh) (by intro hh; cases hh))
  have r5 := r4.step (.inside _ _ (.pass _ none c rfl (fun _ hh => by cases hh)) (by intro hh; cases hh) (by intro hh; cases hh) (by intro hh; cases hh))
  have r6 := r5.step (.inside _ _ (.noDeadline _ none c w rfl ht hw) (by intro hh; cases hh) (by intro hh; cases hh) (by intro hh; cases hh))
  have r7 := r6.step (.probed _ _ _ rfl (.writeFails _ none c w rfl (.inr (.inl rfl))) (by intro hh; cases hh) rfl rfl)
  refine ⟨_, r7, rfl, rfl, rfl, rfl, rfl, rfl, fun t => ?_, rfl, rfl, rfl, rfl⟩
  cases t <;> rfl

/-- With EnableAutoReconnect, for every kind of client: the server hangs up, the probe fails, the heartbeat reconnects,
and the client has a new connection. -/
theorem C71_reconnects (P : Reconn.Params (Option T)) (ht : P.timeout = false) :
    ∃ (s : State T) (c : Call Out), IsVersion P.kind c ∧ Reach P true s ∧
      s.base.log = [.op c (.err .io), .reconnect true] ∧ s.base.raw = some 1 ∧ s.base.conn = 1 ∧ s.hb = .select ∧
      s.probes = 1 ∧ (s.base.conns 1).isOpen = true ∧ (s.base.conns 0).isOpen = false ∧ s.base.lock = none := by
  obtain ⟨c, w, hv, hw⟩ := version_exists P.kind
  obtain ⟨s, r, h1, h2, h3, h4, _, h5, h6, h7, h8, h9, hb⟩ := probe_fails (T := T) P true ht c w hv hw
  have p1 : (s.base.goto none .called).pc none = .called := rfl
  have r1 := r.step (.retry _ hb)
  have r2 := r1.step (.inside _ _ (.lockReconnect _ none p1 h1) (by intro hh; cases hh) (by intro hh; cases hh) (by intro hh; cases hh))
  have r3 := r2.step (.inside _ _ (.shut _ none 0 rfl h2 h5) (by intro hh; cases hh) (by intro hh; cases hh) (by intro hh; cases hh))
  have r4 := r3.step (.inside _ _ (.dial _ none rfl) (by intro hh; cases hh) (by intro hh; cases hh) (by intro hh; cases hh))
  have r5 := r4.step (.inside _ _ (.setRaw _ none 1 (by show Reconn.At.setRaw s.base.dialled = _; rw [h4])) (by intro hh; cases hh) (by intro hh; cases hh) (by intro hh; cases hh))
  have r6 := r5.step (.reconnected _ _ true rfl (.setConn _ none 1 rfl) (by intro hh; cases hh) rfl rfl)
  refine ⟨_, c, hv, r6, ?_, rfl, rfl, rfl, h8, h9, rfl, rfl⟩
  show s.base.log ++ [.reconnect true] = _
  rw [h7]; rfl

/-- Without it, for the meta and the binary client: the heartbeat closes the connection; this is a run with a state as in
`C71_give_up`. -/
theorem C71_gives_up (P : Reconn.Params (Option T)) (ht : P.timeout = false) (hk : P.kind ≠ .text) :
    ∃ (s : State T) (c : Call Out), IsVersion P.kind c ∧ Reach P false s ∧ s.base.log = [.op c (.err .io)] ∧
      s.gaveUp = true ∧ s.base.lock = none ∧ (s.base.conns 0).isOpen = false ∧ s.hb = .select := by
  obtain ⟨c, w, hv, hw⟩ := version_exists P.kind
  obtain ⟨s, r, h1, h2, h3, h4, _, h5, h6, h7, h8, h9, hb⟩ := probe_fails (T := T) P false ht c w hv hw
  have r1 := r.step (.giveUp _ hb)
  have r2 := r1.step (.inside _ _ (.closeGo _ none rfl (fun h => absurd h hk)) (by intro hh; cases hh) (by intro hh; cases hh) (by intro hh; cases hh))
  have r3 := r2.step (.closed _ _ rfl (.closeRaw _ none 0 rfl h2) (by intro hh; cases hh)
    (by show (Reconn.At.user (if P.kind = .text then .clearRaw else .idle)) = _; rw [if_neg hk]))
  exact ⟨_, c, hv, r3, h7, rfl, h1, rfl, rfl⟩

end Heart
end Verif
