import Verif.Props.ReconnProgress
/-!
C73: who can free an operation that waits for a server that does not answer.
-/

namespace Verif
namespace Reconn
open Spec
open Spec.Re
open Life (Kind errClosed errAlready)
open Sched (ClientCall)

variable {T : Type} [DecidableEq T]

/-- `s.raw` is nil, or the connection in use, or the one that Reconnect is about to use. -/
structure RawInv (s : State T) : Prop where
  mid : ∀ t g, s.pc t = .setConn g → s.raw = none ∨ s.raw = some g
  out : (∀ t g, s.pc t ≠ .setConn g) → s.raw = none ∨ s.raw = some s.conn

theorem rawInv {P : Params T} {s : State T} (h : Reach P s) : RawInv s := by
  induction h with
  | init => exact ⟨fun t g hp => (by cases hp), fun _ => .inr rfl⟩
  | @step s s' hr hs ih =>
    have hex := excl hr
    have move : ∀ {q : State T} (t : T) (a : At), q.pc = (s.goto t a).pc → q.raw = s.raw → q.conn = s.conn →
        (∀ g, s.pc t ≠ .setConn g) → (∀ g, a ≠ .setConn g) → RawInv q := by
      intro q t a hp h1 h2 h3 h4
      refine ⟨fun u g hu => ?_, fun hn => ?_⟩
      · rw [hp, goto_pc] at hu
        rw [h1]
        split at hu
        · exact absurd hu (h4 g)
        · exact ih.mid u g hu
      · rw [h1, h2]
        refine ih.out fun u g hu => ?_
        refine hn u g ?_
        rw [hp, goto_pc]
        by_cases hut : u = t
        · exact absurd (hut ▸ hu) (h3 g)
        · simp only [hut, if_false]; exact hu
    have keep : ∀ {q : State T}, q.pc = s.pc → q.raw = s.raw → q.conn = s.conn → RawInv q := by
      intro q h0 h1 h2
      exact ⟨fun u g hu => by rw [h1]; exact ih.mid u g (h0 ▸ hu), fun hn => by rw [h1, h2]; exact ih.out (h0 ▸ hn)⟩
    cases hs with
    | setRaw t g hp =>
      refine ⟨fun u k hu => ?_, fun hn => ?_⟩
      · have hu' : (s.goto t (.setConn g)).pc u = .setConn k := hu
        rw [goto_pc] at hu'
        split at hu'
        · injection hu' with hu'; exact .inr (congrArg some hu')
        · next hne =>
          exact absurd (hex.one (by rw [hp]; rfl) (by rw [hu']; rfl)) hne
      · exfalso
        refine hn t g ?_
        show (s.goto t (.setConn g)).pc t = _
        rw [goto_pc, if_pos rfl]
    | setConn t g hp =>
      refine ⟨fun u k hu => ?_, fun _ => ?_⟩
      · have hu' : (s.goto t (.user .idle)).pc u = .setConn k := hu
        rw [goto_pc] at hu'
        split at hu'
        · cases hu'
        · next hne =>
          exact absurd (hex.one (by rw [hp]; rfl) (by rw [hu']; rfl)) hne
      · exact ih.mid t g hp
    | clearRaw t hp => exact ⟨fun _ _ _ => .inl rfl, fun _ => .inl rfl⟩
    | arrive => exact keep rfl rfl rfl
    | hangUp => exact keep rfl rfl rfl
    | unencodable t c e hp _ => exact move t (.user .idle) rfl rfl rfl (by rcases hp with ⟨hp, _⟩ | ⟨hp, _⟩ <;> simp [hp]) (by simp)
    | unencodablePanic t c hp _ => exact move t (.user .idle) rfl rfl rfl (by rcases hp with ⟨hp, _⟩ | ⟨hp, _⟩ <;> simp [hp]) (by simp)
    | writeDeadlineNil => exact keep rfl rfl rfl
    | readDeadlineNil => exact keep rfl rfl rfl
    | closeRawNil => exact keep rfl rfl rfl
    | closeChanPanic => exact keep rfl rfl rfl
    | _ => exact move _ _ rfl rfl rfl (by simp [*]) (by simp)

/-- While an operation waits for its reply, `s.raw` is its connection or nil. -/
theorem raw_reading {P : Params T} {s : State T} (h : Reach P s) {t : T} {c : Call Out} (hp : s.pc t = .user (.reading c)) :
    s.raw = none ∨ s.raw = some s.conn := by
  refine (rawInv h).out fun u g hu => ?_
  have : u = t := (excl h).one (by rw [hp]; rfl) (by rw [hu]; rfl)
  rw [this, hp] at hu; cases hu

/-- A meta or a binary client never sets `s.raw` to nil. -/
theorem raw_notText {P : Params T} (hk : P.kind ≠ .text) {s : State T} (h : Reach P s) :
    s.raw ≠ none ∧ ∀ t, s.pc t ≠ .user .clearRaw := by
  induction h with
  | init => exact ⟨(by intro hh; cases hh), fun t hh => (by cases hh)⟩
  | @step s s' hr hs ih =>
    have move : ∀ {q : State T} (t : T) (a : At), q.pc = (s.goto t a).pc → q.raw = s.raw → a ≠ .user .clearRaw →
        q.raw ≠ none ∧ ∀ t, q.pc t ≠ .user .clearRaw := by
      intro q t a hp h1 h2
      refine ⟨h1 ▸ ih.1, fun u hu => ?_⟩
      rw [hp, goto_pc] at hu
      split at hu
      · exact h2 hu
      · exact ih.2 u hu
    cases hs with
    | clearRaw t hp => exact absurd hp (ih.2 t)
    | closeRaw t g hp _ => exact move t _ rfl rfl (by rw [if_neg hk]; simp)
    | setRaw t g hp =>
      refine ⟨(by intro hh; cases hh), fun u hu => ?_⟩
      have hu' : (s.goto t (.setConn g)).pc u = .user .clearRaw := hu
      rw [goto_pc] at hu'
      split at hu'
      · cases hu'
      · exact ih.2 u hu'
    | arrive => exact ih
    | hangUp => exact ih
    | writeDeadlineNil => exact ih
    | readDeadlineNil => exact ih
    | closeRawNil => exact ih
    | closeChanPanic => exact ih
    | _ => exact move _ _ rfl rfl (by simp)

/-- **C73**: an operation `c` of goroutine `t` waits for its reply.  If goroutine `u` calls Close, and the client is a
meta or a binary client, or a text client that has not been closed before, then there is a run in which Close closes the
connection and the operation returns with an error; no reply is needed. -/
theorem C73_close_frees (P : Params T) (s : State T) (h : Reach P s) (t u : T) (c : Call Out)
    (hp : s.pc t = .user (.reading c)) (hio : (c.rd s.cur.inbox).1 = .err .io) (hu : s.pc u = .user .idle) (hcl : P.closers u)
    (hk : P.kind = .text → s.closeCh = true ∧ s.raw ≠ none) :
    ∃ s', Later P s s' ∧ s'.log = s.log ++ [.op c (.err .io)] ∧ s'.pc t = .user .idle ∧ (s'.conns s.conn).isOpen = false := by
  have hut : t ≠ u := by intro hh; rw [hh, hu] at hp; cases hp
  have hraw : s.raw = some s.conn := by
    rcases raw_reading h hp with e | e
    · exfalso
      by_cases hkk : P.kind = .text
      · exact (hk hkk).2 e
      · exact (raw_notText hkk h).1 e
    · exact e
  let s1 := s.goto u (.user .close)
  let s2 := s1.goto u (.user .closeRaw)
  let s3 := (s2.goto u (.user (if P.kind = .text then .clearRaw else .idle))).setConn s.conn { s2.conns s.conn with isOpen := false }
  have l1 : Later P s s1 := Later.step .refl (.callClose s u hu hcl)
  have l2 : Later P s s2 := .step l1 (.closeGo s1 u (by show (s.goto _ _).pc u = _; rw [goto_pc, if_pos rfl]) fun hkk => (hk hkk).1)
  have l3 : Later P s s3 := .step l2 (.closeRaw s2 u s.conn (by show (s1.goto _ _).pc u = _; rw [goto_pc, if_pos rfl]) hraw)
  have hc3 : s3.cur = { s.cur with isOpen := false } := by
    show (if s.conn = s.conn then _ else _) = _
    rw [if_pos rfl]; rfl
  have hp3 : s3.pc t = .user (.reading c) := by
    show (if t = u then _ else (if t = u then _ else (if t = u then _ else s.pc t))) = _
    rw [if_neg hut, if_neg hut, if_neg hut]; exact hp
  have st := Step.readFails (P := P) s3 t c hp3 (by rw [hc3]; exact hio) (.inl (by rw [hc3]))
  refine ⟨_, .step l3 st, rfl, ?_, ?_⟩
  · show (s3.goto t (.user .idle)).pc t = _
    rw [goto_pc, if_pos rfl]
  · rw [hc3]
    show (if s.conn = s.conn then _ else _ : Conn).isOpen = false
    rw [if_pos rfl]

/-- An operation that nobody but the server can free. -/
structure Stuck (P : Params T) (t : T) (c : Call Out) (k : Nat) (i : Bytes) (s : State T) : Prop where
  pc : s.pc t = .user (.reading c)
  conn : s.conn = k
  inbox : (s.conns k).inbox = i
  isOpen : (s.conns k).isOpen = true
  got : (s.conns k).got = P.resp k (s.conns k).sent
  closed : s.closeCh = false
  close : ∀ u, s.pc u ≠ .user .closeRaw

theorem stuck_step {P : Params T} (hk : P.kind = .text) (hl : ¬ (P.timeout = true ∧ P.late = true)) {t : T} {c : Call Out}
    {k : Nat} {i : Bytes} (hi : (c.rd i).1 = .err .io) {s s' : State T} (hex : Excl s)
    (h : Stuck P t c k i s) (he : (s.conns k).ended = false) (hs : Step P s s') : Stuck P t c k i s' := by
  have hin : (s.pc t).inside = true := by rw [h.pc]; rfl
  have ne : ∀ {u}, s.pc u ≠ .user (.reading c) → u ≠ t := fun hu hh => hu (hh ▸ h.pc)
  have notin : ∀ {u}, (s.pc u).inside = true → u = t := fun hu => hex.one hin hu
  have move : ∀ {q : State T} (u : T) (a : At), q.pc = (s.goto u a).pc → q.conn = s.conn → q.conns = s.conns →
      q.closeCh = s.closeCh → u ≠ t → a ≠ .user .closeRaw → Stuck P t c k i q := by
    intro q u a h1 h2 h3 h4 h5 h6
    refine ⟨?_, h2.trans h.conn, by rw [h3]; exact h.inbox, by rw [h3]; exact h.isOpen, by rw [h3]; exact h.got, h4.trans h.closed, ?_⟩
    · rw [h1, goto_pc, if_neg (Ne.symm h5)]; exact h.pc
    · intro v hv
      rw [h1, goto_pc] at hv
      split at hv
      · exact h6 hv
      · exact h.close v hv
  have keep : ∀ {q : State T}, q.pc = s.pc → q.conn = s.conn → q.conns = s.conns → q.closeCh = s.closeCh → Stuck P t c k i q := by
    intro q h1 h2 h3 h4
    exact ⟨by rw [h1]; exact h.pc, h2.trans h.conn, by rw [h3]; exact h.inbox, by rw [h3]; exact h.isOpen,
      by rw [h3]; exact h.got, h4.trans h.closed, by rw [h1]; exact h.close⟩
  have other : ∀ {u} {a : At}, s.pc u = a → a.inside = true → (∀ d, a ≠ .user (.reading d)) → Stuck P t c k i s' := by
    intro u a ha hh hn
    have := notin (ha ▸ hh)
    rw [this, h.pc] at ha
    exact absurd ha.symm (hn c)
  have hcur : s.cur = s.conns k := by rw [State.cur, h.conn]
  cases hs with
  | call u d hp _ => exact move u (.user (.called d)) rfl rfl rfl rfl (ne (by simp [hp])) (by simp)
  | lock u d hp hlk =>
    rw [(hex t).1 hin] at hlk; cases hlk
  | refuse u d hp _ _ => exact other hp rfl (by simp)
  | pass u d hp _ => exact other hp rfl (by simp)
  | writeDeadlineNil u d hp _ _ => exact other hp rfl (by simp)
  | writeDeadline u d hp _ _ => exact other hp rfl (by simp)
  | readDeadlineNil u d hp _ => exact other hp rfl (by simp)
  | readDeadline u d w hp _ _ => exact other hp rfl (by simp)
  | noDeadline u d w hp _ _ => exact other hp rfl (by simp)
  | unencodable u d e hp _ => rcases hp with ⟨hp, _⟩ | ⟨hp, _⟩ <;> exact other hp rfl (by simp)
  | unencodablePanic u d hp _ => rcases hp with ⟨hp, _⟩ | ⟨hp, _⟩ <;> exact other hp rfl (by simp)
  | write u d x y hp _ _ => exact other hp rfl (by simp)
  | writeFails u d x hp _ => exact other hp rfl (by simp)
  | written u d hp _ => exact other hp rfl (by simp)
  | arrive g x y hg ho hen hx =>
    by_cases hgk : g = k
    · subst hgk
      have hx0 : x = [] := by
        rw [← h.got, List.append_assoc] at hx
        have := List.append_cancel_left (((List.append_nil _).trans hx))
        exact (List.append_eq_nil_iff.1 this.symm).1
      subst hx0
      rw [setConn_same (by rw [List.append_nil, List.append_nil])]
      exact h
    · have e := setConn_other s (Ne.symm hgk) { s.conns g with got := (s.conns g).got ++ x, inbox := (s.conns g).inbox ++ x }
      exact ⟨h.pc, h.conn, by rw [e]; exact h.inbox, by rw [e]; exact h.isOpen, by rw [e]; exact h.got, h.closed, h.close⟩
  | hangUp g hg =>
    have e : ((s.setConn g { s.conns g with ended := true }).conns k).inbox = (s.conns k).inbox ∧
        ((s.setConn g { s.conns g with ended := true }).conns k).isOpen = (s.conns k).isOpen ∧
        ((s.setConn g { s.conns g with ended := true }).conns k).got = (s.conns k).got ∧
        ((s.setConn g { s.conns g with ended := true }).conns k).sent = (s.conns k).sent := by
      by_cases hgk : k = g
      · subst hgk; simp [setConn_at]
      · simp [setConn_at, hgk]
    exact ⟨h.pc, h.conn, by rw [e.1]; exact h.inbox, by rw [e.2.1]; exact h.isOpen, by rw [e.2.2.1, e.2.2.2]; exact h.got, h.closed, h.close⟩
  | read u d hp hio =>
    exfalso
    have := notin (u := u) (by rw [hp]; rfl)
    rw [this, h.pc] at hp
    injection hp with hp; injection hp with hp
    rw [← hp, hcur, h.inbox] at hio
    exact hio hi
  | readFails u d hp hio hend =>
    exfalso
    rw [hcur, h.isOpen, he] at hend
    rcases hend with e | e <;> cases e
  | readTimeout u d hp hio h1 h2 => exact absurd ⟨h1, h2⟩ hl
  | callClose u hp _ => exact move u (.user .close) rfl rfl rfl rfl (ne (by simp [hp])) (by simp)
  | closeAgain u hp _ _ => exact move u (.user .idle) rfl rfl rfl rfl (ne (by simp [hp])) (by simp)
  | closeGo u hp hg => have := hg hk; rw [h.closed] at this; cases this
  | closeRawNil u hp _ => exact absurd hp (h.close u)
  | closeRaw u g hp _ => exact absurd hp (h.close u)
  | clearRaw u hp => exact move u (.user .closeChan) rfl rfl rfl rfl (ne (by simp [hp])) (by simp)
  | closeChanPanic u hp _ => exact keep rfl rfl rfl rfl
  | closeChan u hp h1 _ => rw [h.closed] at h1; cases h1
  | clearChan u hp => exact move u (.user .idle) rfl rfl rfl h.closed.symm (ne (by simp [hp])) (by simp)
  | callReconnect u hp _ => exact move u .called rfl rfl rfl rfl (ne (by simp [hp])) (by simp)
  | lockReconnect u hp hlk => rw [(hex t).1 hin] at hlk; cases hlk
  | noRaw u hp _ => exact other hp rfl (by simp)
  | shut u g hp _ _ => exact other hp rfl (by simp)
  | shutFails u g hp _ _ => exact other hp rfl (by simp)
  | dial u hp => exact other hp rfl (by simp)
  | dialFails u hp => exact other hp rfl (by simp)
  | setRaw u g hp => exact other hp rfl (by simp)
  | setConn u g hp => exact other hp rfl (by simp)

/-- A connection that has been hung up stays so. -/
theorem ended_step {P : Params T} {s s' : State T} (k : Nat) (h : (s.conns k).ended = true) (hs : Step P s s') :
    (s'.conns k).ended = true := by
  have set : ∀ (q : State T) (g : Nat) (c : Conn), q.conns = s.conns → c.ended = (s.conns g).ended →
      ((q.setConn g c).conns k).ended = true := fun q g c h1 h2 => (setConn_ended s q g c h1 h2 k).trans h
  cases hs with
  | write => exact set _ _ _ rfl rfl
  | writeFails => exact set _ _ _ rfl rfl
  | arrive => exact set _ _ _ rfl rfl
  | hangUp g _ =>
    rw [setConn_at]
    split
    · rfl
    · exact h
  | read => exact set _ _ _ rfl rfl
  | readFails => exact set _ _ _ rfl rfl
  | readTimeout => exact set _ _ _ rfl rfl
  | closeRaw => exact set _ _ _ rfl rfl
  | shut => exact set _ _ _ rfl rfl
  | _ => exact h

/-- **C73**: a text client that has been closed before, and is in use again since a Reconnect, cannot be closed.  An
operation that waits there for a server that sends nothing more waits for ever, whatever Close, Reconnect and
operations are called, unless the server hangs up. -/
theorem C73_stuck (P : Params T) (hk : P.kind = .text) (hl : ¬ (P.timeout = true ∧ P.late = true)) (s : State T) (h : Reach P s)
    (t : T) (c : Call Out) (hp : s.pc t = .user (.reading c)) (hio : (c.rd s.cur.inbox).1 = .err .io)
    (hgot : s.cur.got = P.resp s.conn s.cur.sent) (ho : s.cur.isOpen = true)
    (hcl : s.closeCh = false) (hcl' : ∀ u, s.pc u ≠ .user .closeRaw) (s' : State T) (hs' : Later P s s')
    (he : (s'.conns s.conn).ended = false) : s'.pc t = .user (.reading c) ∧ s'.cur.isOpen = true := by
  have key : Reach P s' ∧ ((s'.conns s.conn).ended = true ∨ Stuck P t c s.conn s.cur.inbox s') := by
    clear he
    induction hs' with
    | refl => exact ⟨h, .inr ⟨hp, rfl, rfl, ho, hgot, hcl, hcl'⟩⟩
    | @step q q' _ hs ih =>
      refine ⟨.step ih.1 hs, ?_⟩
      rcases ih.2 with e | e
      · exact .inl (ended_step _ e hs)
      · cases he : (q.conns s.conn).ended with
        | true => exact .inl (ended_step _ he hs)
        | false => exact .inr (stuck_step hk hl hio (excl ih.1) e he hs)
  rcases key.2 with e | e
  · rw [he] at e; cases e
  · exact ⟨e.pc, by rw [State.cur, e.conn]; exact e.isOpen⟩

/-! ## Nobody calls Close: memcached -/

theorem fine {P : Params T} (hcl : ∀ t, ¬ P.closers t) {s : State T} (h : Reach P s) : s.crashed = false := by
  induction h with
  | init => rfl
  | @step s s' hr hs ih =>
    have ht := tidy hcl hr
    have hraw : ∀ {t : T} {c : Call Out}, (s.pc t = .user (.writeDeadline c) ∨ s.pc t = .user (.readDeadline c)) → s.raw ≠ none := by
      intro t c hp
      rw [ht.inUse fun u => ?_]
      · simp
      · cases hx : (s.pc u).placed with
        | none => rfl
        | some g =>
          have hu : u = t := (excl hr).one (by rcases hp with hp | hp <;> rw [hp] <;> rfl) (At.inside_of_past (At.past_of_placed hx))
          rw [hu] at hx
          rcases hp with hp | hp <;> rw [hp] at hx <;> cases hx
    cases hs with
    | writeDeadlineNil t c hp _ hn => exact absurd hn (hraw (.inl hp))
    | readDeadlineNil t c hp hn => exact absurd hn (hraw (.inr hp))
    | closeRawNil t hp _ => have := ht.closing t; rw [hp] at this; cases this
    | closeChanPanic t hp _ => have := ht.closing t; rw [hp] at this; cases this
    | _ => exact ih

open Kv in
/-- **C73**, text clients of a memcached server: with nobody calling Close, whenever Reconnect is called and whatever
connections the server hangs up, the calls under way cannot stop before all of them have returned. -/
theorem C73_memcached_text (P : Params T) (name : Bytes) (store : Nat → Store) (hs : ∀ n, GoodStore (store n))
    (hk : P.kind = .text) (hp : ∀ n, P.resp n = Mc.output (store n)) (hcl : ∀ t, ¬ P.closers t)
    (hc : ∀ c, P.calls c → ∃ op, GoodOp op ∧ c = Mc.textCall name op)
    (s : State T) (h : Reach P s) (hcas : (store s.conn).nextCas + (epoch s.conn s.log).length + 1 < 2 ^ 63)
    (hb : Blocked P s) : AllDone s := by
  refine C73_served P (fun g => (hp g) ▸ Mc.output_online (store g))
    (fun c hcc => by obtain ⟨op, _, rfl⟩ := hc c hcc; rw [hk]; exact .text name op) s h (fine hcl h) ?_ hb
  intro c hcc
  obtain ⟨ops, hops, hlog⟩ := Sched.ops_of_calls (Q := GoodOp) (call := Mc.textCall name) ((epoch s.conn s.log).map (·.1) ++ [c]) (by
    intro d hd
    rcases List.mem_append.1 hd with hd | hd
    · obtain ⟨e, he, rfl⟩ := List.mem_map.1 hd
      exact hc e.1 (log_known h e.1 e.2 (epoch_mem _ _ _ _ he))
    · rw [List.mem_singleton.1 hd]; exact hc c hcc)
  have hlen : ops.length = (epoch s.conn s.log).length + 1 := by
    have := congrArg List.length hlog
    simpa using this.symm
  have hh := Props.C52_text_history name (ops.map fun o => (0, o)) (store s.conn)
    (by intro ev hev; obtain ⟨o, ho, rfl⟩ := List.mem_map.1 hev; exact hops o ho) (hs s.conn) (by simp only [List.length_map, hlen]; omega)
  rw [hlog, hp, Mc.oneByOne_session (Mc.textCall name) (store s.conn) ops (store s.conn) _ [] _
    (by intro x; rw [List.nil_append]; rfl) hh]
  exact Sched.runApi_not_io (Sched.textApi_not_io name) _ _

/-- **C73**, concretely: the hypotheses of `C73_memcached_text` hold of the parameters `again`, in a state in which a
Reconnect and an operation are under way. -/
theorem C73_concrete :
    (∀ s, Reach again s → (epoch s.conn s.log).length < 1000000 → Blocked again s → AllDone s) ∧
      ∃ s : State Bool, Reach again s ∧ (epoch s.conn s.log).length < 1000000 ∧ s.pc false = .called ∧
        s.pc true = .user (.called (Mc.textCall b!"a" (.get b!"k"))) := by
  refine ⟨fun s h hn hb => ?_, ?_⟩
  · exact C73_memcached_text again b!"a" Props.emptyStore Props.emptyStore_good rfl (fun _ => rfl) (fun _ hh => hh)
      (fun c hc => hc) s h (by show 1 + (epoch s.conn s.log).length + 1 < 2 ^ 63; omega) hb
  · have r0 : Reach again init := .init
    have r1 := r0.step (.callReconnect _ false rfl rfl)
    have r2 := r1.step (.call _ true (Mc.textCall b!"a" (.get b!"k")) rfl ⟨.get b!"k", (by decide : Key b!"k"), rfl⟩)
    exact ⟨_, r2, by decide, rfl, rfl⟩

/-! ## A run -/

/-- The run: Close, Reconnect, then an operation. -/
theorem stuck_run (P : Params Bool) (hk : P.kind = .text) (ht : P.timeout = false) (hcl : P.closers true)
    (hr : P.reconnectors true) (c : Call Out) (w : Bytes) (hc : P.calls c) (hw : c.wire = .ok w) (hresp : P.resp 1 w = [])
    (hnil : (c.rd []).1 = .err .io) :
    ∃ s, Reach P s ∧ s.pc true = .user (.reading c) ∧ s.pc false = .user .idle ∧ s.log = [.reconnect true] ∧ s.closeCh = false ∧
      s.conn = 1 ∧ s.cur.isOpen = true ∧ s.cur.ended = false ∧ (c.rd s.cur.inbox).1 = .err .io ∧
      s.cur.got = P.resp s.conn s.cur.sent ∧ s.crashed = false := by
  have r0 : Reach P init := .init
  have r1 := r0.step (.callClose _ true rfl hcl)
  have r2 := r1.step (.closeGo _ true rfl (fun _ => rfl))
  have r3 := r2.step (.closeRaw _ true 0 rfl rfl)
  rw [if_pos hk] at r3
  have r4 := r3.step (.clearRaw _ true rfl)
  have r5 := r4.step (.closeChan _ true rfl rfl rfl)
  have r6 := r5.step (.clearChan _ true rfl)
  have r7 := r6.step (.callReconnect _ true rfl hr)
  have r8 := r7.step (.lockReconnect _ true rfl rfl)
  have r9 := r8.step (.noRaw _ true rfl rfl)
  have r10 := r9.step (.dial _ true rfl)
  have r11 := r10.step (.setRaw _ true 1 rfl)
  have r12 := r11.step (.setConn _ true 1 rfl)
  have r13 := r12.step (.call _ true c rfl hc)
  have r14 := r13.step (.lock _ true c rfl rfl)
  have r15 := r14.step (.pass _ true c rfl (fun _ hh => (by cases hh)))
  have r16 := r15.step (.noDeadline _ true c (w ++ []) rfl ht (by rw [List.append_nil]; exact hw))
  have r17 := r16.step (.write _ true c w [] rfl rfl rfl)
  have r18 := r17.step (.written _ true c rfl rfl)
  exact ⟨_, r18, rfl, rfl, rfl, rfl, rfl, rfl, rfl, hnil, hresp.symm, rfl⟩

/-- Two goroutines, the text client, a server that does not answer. -/
def mute : Params Bool where
  kind := .text
  timeout := false
  late := false
  resp := fun _ _ => []
  calls := fun c => ∃ op, GoodOp op ∧ c = Mc.textCall b!"a" op
  closers := fun _ => True
  reconnectors := fun _ => True

/-- **C73**, concretely: the client is closed and reconnected, Get is called, the server does not answer; from then on,
whatever the other goroutine calls, Get does not return while the server does not hang up. -/
theorem C73_stuck_concrete :
    ∃ s, Reach mute s ∧ s.log = [.reconnect true] ∧ s.crashed = false ∧ s.pc false = .user .idle ∧
      ∀ s', Later mute s s' → (s'.conns 1).ended = false →
        s'.pc true = .user (.reading (Mc.textCall b!"a" (.get b!"k"))) := by
  obtain ⟨s, h1, h2, h3, h4, h5, h6, h7, h8, h9, h10, h11⟩ := stuck_run mute rfl rfl trivial trivial
    (Mc.textCall b!"a" (.get b!"k")) _ ⟨.get b!"k", (by decide : Key b!"k"), rfl⟩ rfl rfl (by decide +kernel)
  refine ⟨s, h1, h4, h11, h3, fun s' hs' he => ?_⟩
  refine (C73_stuck mute rfl (by simp [mute]) s h1 true _ h2 h9 h10 h7 h5 ?_ s' hs' (by rw [h6]; exact he)).1
  intro u hu
  cases u with
  | false => rw [h3] at hu; cases hu
  | true => rw [h2] at hu; cases hu

end Reconn
end Verif
