import Verif.Props.Narrow
import Verif.Props.ProgressUse
/-!
C79: a request that is too much for the connection, and what becomes of the other goroutines.
-/

namespace Verif
namespace Narrow
open Spec Flow

variable {T : Type} [DecidableEq T] {σ : Type}

/-- What a goroutine that has the mutex for call `c` with request `w` has still to send. -/
inductive ToDo (c : Call Out) (w : Bytes) : Sched.At → Bytes → Prop where
  | locked : ToDo c w (.locked c) w
  | writeDeadline : ToDo c w (.writeDeadline c) w
  | readDeadline : ToDo c w (.readDeadline c) w
  | writing (y : Bytes) : ToDo c w (.writing c y) y

theorem ToDo.inside {c : Call Out} {w y : Bytes} {a : Sched.At} (h : ToDo c w a y) : a.inside = true := by cases h <;> rfl

/-- A goroutine that has the mutex and has not sent its request goes on with it or fails. -/
theorem holds {P : Sched.Params T} {s s' : Sched.State T} (hex : Sched.Excl s) (hu : Sched.Unclosed s)
    {t : T} {c : Call Out} {w y : Bytes} (hw : (∀ x, s.pc t ≠ .writing c x) → c.wire = .ok w) (hp : ToDo c w (s.pc t) y) (hy : y ≠ [])
    (hs : Sched.Step P s s') (hse : s'.sent = s.sent) :
    (ToDo c w (s'.pc t) y ∧ s'.log = s.log) ∨
    (s' = { s.ret t c (.err .io) with werr := true } ∧
      (s.ended = true ∨ s.werr = true ∨ P.timeout = true ∧ P.late = true)) := by
  have hin := hp.inside
  have only : ∀ u, (s.pc u).inside = true → u = t := fun u hi =>
    Option.some.inj (((hex u).1 hi).symm.trans ((hex t).1 hin))
  have away : ∀ u a, (s.pc u).inside = false → (s.goto u a).pc t = s.pc t := by
    intro u a hi
    rw [Sched.goto_pc]
    by_cases h : t = u
    · subst h; rw [hin] at hi; cases hi
    · simp [h]
  have here : ∀ a, (s.goto t a).pc t = a := by intro a; simp [Sched.goto_pc]
  have bad : ∀ {u} {X : Prop}, (s.pc u = .close ∨ (s.pc u).closing = true) → X := by
    intro u X h
    rcases h with h | h
    · exact absurd h (hu.pc u).1
    · rw [(hu.pc u).2] at h; cases h
  cases hs with
  | call u d h _ => exact .inl ⟨by rw [away u _ (by rw [h]; rfl)]; exact hp, rfl⟩
  | lock u d h hl => rw [(hex t).1 hin] at hl; cases hl
  | refuse u d h _ hr => rw [hu.raw] at hr; cases hr
  | pass u d h _ =>
    obtain rfl := only u (by rw [h]; rfl)
    rw [h] at hp
    cases hp
    exact .inl ⟨by rw [here]; exact .writeDeadline, rfl⟩
  | writeDeadlineNil u d h _ hr => rw [hu.raw] at hr; cases hr
  | writeDeadline u d h _ _ =>
    obtain rfl := only u (by rw [h]; rfl)
    rw [h] at hp
    cases hp
    exact .inl ⟨by rw [here]; exact .readDeadline, rfl⟩
  | readDeadlineNil u d h hr => rw [hu.raw] at hr; cases hr
  | readDeadline u d w' h _ hw' =>
    obtain rfl := only u (by rw [h]; rfl)
    rw [h] at hp
    cases hp
    rw [hw (by simp [h])] at hw'
    cases hw'
    exact .inl ⟨by rw [here]; exact .writing _, rfl⟩
  | noDeadline u d w' h _ hw' =>
    obtain rfl := only u (by rw [h]; rfl)
    rw [h] at hp
    cases hp
    rw [hw (by simp [h])] at hw'
    cases hw'
    exact .inl ⟨by rw [here]; exact .writing _, rfl⟩
  | unencodable u d e h hw' =>
    rcases h with ⟨h, _⟩ | ⟨h, _⟩ <;>
    · obtain rfl := only u (by rw [h]; rfl)
      rw [h] at hp
      cases hp
      rw [hw (by simp [h])] at hw'
      cases hw'
  | unencodablePanic u d h hw' =>
    rcases h with ⟨h, _⟩ | ⟨h, _⟩ <;>
    · obtain rfl := only u (by rw [h]; rfl)
      rw [h] at hp
      cases hp
      rw [hw (by simp [h])] at hw'
      cases hw'
  | write u d x z h _ _ =>
    obtain rfl := only u (by rw [h]; rfl)
    rw [h] at hp
    cases hp
    have hx : x = [] := by
      have h2 : s.sent ++ x = s.sent := hse
      have := congrArg List.length h2
      simp at this
      exact this
    subst hx
    exact .inl ⟨by show ToDo _ _ ((s.goto u (.writing c z)).pc u) _; rw [here]; exact .writing _, rfl⟩
  | writeFails u d x h hc =>
    obtain rfl := only u (by rw [h]; rfl)
    rw [h] at hp
    cases hp
    refine .inr ⟨rfl, ?_⟩
    rcases hc with e | e
    · rw [hu.isOpen] at e; cases e
    · exact e
  | written u d h _ =>
    obtain rfl := only u (by rw [h]; rfl)
    rw [h] at hp
    cases hp
    exact absurd rfl hy
  | arrive x z _ _ _ => exact .inl ⟨hp, rfl⟩
  | hangUp => exact .inl ⟨hp, rfl⟩
  | read u d h _ =>
    obtain rfl := only u (by rw [h]; rfl)
    rw [h] at hp
    cases hp
  | readFails u d h _ _ =>
    obtain rfl := only u (by rw [h]; rfl)
    rw [h] at hp
    cases hp
  | readTimeout u d h _ _ _ =>
    obtain rfl := only u (by rw [h]; rfl)
    rw [h] at hp
    cases hp
  | callClose u h _ => exact .inl ⟨by rw [away u _ (by rw [h]; rfl)]; exact hp, rfl⟩
  | closeAgain u h => exact bad (.inl h)
  | closeGo u h => exact bad (.inl h)
  | closeRawNil u h => exact bad (.inr (by rw [h]; rfl))
  | closeRaw u h => exact bad (.inr (by rw [h]; rfl))
  | clearRaw u h => exact bad (.inr (by rw [h]; rfl))
  | closeChanPanic u h => exact bad (.inr (by rw [h]; rfl))
  | closeChan u h => exact bad (.inr (by rw [h]; rfl))
  | clearChan u h => exact bad (.inr (by rw [h]; rfl))

/-- A write has failed, and nobody reads. -/
def Dead (s : Sched.State T) : Prop := s.werr = true ∧ ∀ u d, s.pc u ≠ .reading d

theorem dead_step {P : Sched.Params T} {s s' : Sched.State T} (hu : Sched.Unclosed s) (hd : Dead s) (hs : Sched.Step P s s') :
    Dead s' ∧ (s'.log = s.log ∨ ∃ d r, s'.log = s.log ++ [(d, r)] ∧ Fails d r) := by
  obtain ⟨hw, hr⟩ := hd
  have go : ∀ u a, (∀ d, a ≠ .reading d) → ∀ v d, (s.goto u a).pc v ≠ .reading d := by
    intro u a ha v d
    rw [Sched.goto_pc]
    by_cases h : v = u
    · simp only [h, if_true]; exact ha d
    · simp only [h, if_false]; exact hr v d
  have bad : ∀ {u} {X : Prop}, (s.pc u = .close ∨ (s.pc u).closing = true) → X := by
    intro u X h
    rcases h with h | h
    · exact absurd h (hu.pc u).1
    · rw [(hu.pc u).2] at h; cases h
  cases hs with
  | call u d h _ => exact ⟨⟨hw, go u _ (by simp)⟩, .inl rfl⟩
  | lock u d h hl => exact ⟨⟨hw, go u _ (by simp)⟩, .inl rfl⟩
  | refuse u d h _ hr => rw [hu.raw] at hr; cases hr
  | pass u d h _ => exact ⟨⟨hw, go u _ (by simp)⟩, .inl rfl⟩
  | writeDeadlineNil u d h _ hr => rw [hu.raw] at hr; cases hr
  | writeDeadline u d h _ _ => exact ⟨⟨hw, go u _ (by simp)⟩, .inl rfl⟩
  | readDeadlineNil u d h hr => rw [hu.raw] at hr; cases hr
  | readDeadline u d w' h _ hw' => exact ⟨⟨hw, go u _ (by simp)⟩, .inl rfl⟩
  | noDeadline u d w' h _ hw' => exact ⟨⟨hw, go u _ (by simp)⟩, .inl rfl⟩
  | unencodable u d e h hw' => exact ⟨⟨hw, go u _ (by simp)⟩, .inr ⟨d, _, rfl, .inr (.inl ⟨e, hw', rfl⟩)⟩⟩
  | unencodablePanic u d h hw' => exact ⟨⟨hw, go u _ (by simp)⟩, .inr ⟨d, _, rfl, .inr (.inr ⟨hw', rfl⟩)⟩⟩
  | write u d x z h _ h2 => rw [hw] at h2; cases h2
  | writeFails u d x h hc => exact ⟨⟨rfl, go u _ (by simp)⟩, .inr ⟨d, _, rfl, .inl rfl⟩⟩
  | written u d h h2 => rw [hw] at h2; cases h2
  | arrive x z _ _ _ => exact ⟨⟨hw, hr⟩, .inl rfl⟩
  | hangUp => exact ⟨⟨hw, hr⟩, .inl rfl⟩
  | read u d h _ => exact absurd h (hr u d)
  | readFails u d h _ _ => exact absurd h (hr u d)
  | readTimeout u d h _ _ _ => exact absurd h (hr u d)
  | callClose u h _ => exact ⟨⟨hw, go u _ (by simp)⟩, .inl rfl⟩
  | closeAgain u h => exact bad (.inl h)
  | closeGo u h => exact bad (.inl h)
  | closeRawNil u h => exact bad (.inr (by rw [h]; rfl))
  | closeRaw u h => exact bad (.inr (by rw [h]; rfl))
  | clearRaw u h => exact bad (.inr (by rw [h]; rfl))
  | closeChanPanic u h => exact bad (.inr (by rw [h]; rfl))
  | closeChan u h => exact bad (.inr (by rw [h]; rfl))
  | clearChan u h => exact bad (.inr (by rw [h]; rfl))

/-- What has been going on when a write has failed. -/
theorem werr_cause {P : Sched.Params T} (hcl : ∀ t, ¬ P.closers t) {s : Sched.State T} (h : Sched.Reach P s) :
    s.werr = true → s.ended = true ∨ P.timeout = true ∧ P.late = true := by
  induction h with
  | init => intro h; cases h
  | @step s s' hr hs ih =>
    have hu := Sched.unclosed hcl hr
    cases hs with
    | writeFails u d x h hc =>
      intro _
      rcases hc with e | e | e | e
      · rw [hu.isOpen] at e; cases e
      · exact .inl e
      · exact ih e
      · exact .inr e
    | hangUp => intro _; exact .inl rfl
    | _ => exact ih

theorem Later.trans {P : Sched.Params T} {W : Peer σ} {R : Room} {q q1 q2 : State T σ} (h1 : Later P W R q q1)
    (h2 : Later P W R q1 q2) : Later P W R q q2 := by
  induction h2 with
  | refl => exact h1
  | step _ hs ih => exact ih.step hs

/-- **C79 (after a failed write).** Once a write has failed (a deadline, or the other side having hung up), no call sends
anything or succeeds any more, whatever the server does and however many goroutines try. -/
theorem C79_dead {P : Sched.Params T} {W : Peer σ} (hW : Framed W) {R : Room} {s0 : σ} (hs : Says W s0 P.resp)
    (hcl : ∀ t, ¬ P.closers t) {q q' : State T σ} (h : Later P W R (init s0) q) (hl : q.users.lock = none)
    (hwe : q.users.werr = true) (hlat : Later P W R q q') :
    q'.users.sent = q.users.sent ∧ ∃ more, q'.users.log = q.users.log ++ more ∧ ∀ e ∈ more, Fails e.1 e.2 := by
  have hd0 : Dead q.users := by
    refine ⟨hwe, fun u d hp => ?_⟩
    have := ((Sched.excl (C79_refines hW hs h)) u).1 (by rw [hp]; rfl)
    rw [hl] at this; cases this
  suffices key : Dead q'.users ∧ q'.users.sent = q.users.sent ∧ ∃ more, q'.users.log = q.users.log ++ more ∧ ∀ e ∈ more, Fails e.1 e.2 from key.2
  induction hlat with
  | refl => exact ⟨hd0, rfl, [], by simp, by simp⟩
  | @step q1 q2 hl1 hst ih =>
    obtain ⟨hd, hse, more, hm, hf⟩ := ih
    have hu := Sched.unclosed hcl (C79_refines hW hs (h.trans hl1))
    cases hst with
    | other s h1 e1 e2 =>
      obtain ⟨hd', hlog⟩ := dead_step hu hd h1
      refine ⟨hd', e1.trans hse, ?_⟩
      rcases hlog with e | ⟨d, r, e, hfd⟩
      · exact ⟨more, e.trans hm, hf⟩
      · refine ⟨more ++ [(d, r)], by show s.log = _; rw [e, hm, List.append_assoc], fun x hx => ?_⟩
        rcases List.mem_append.1 hx with hx | hx
        · exact hf x hx
        · rw [List.mem_singleton.1 hx]; exact hfd
    | send u d x y _ _ h2 => rw [hd.1] at h2; cases h2
    | hear u d x y h2 => exact absurd h2 (hd.2 u d)
    | take => exact ⟨hd, hse, more, hm, hf⟩
    | handle => exact ⟨hd, hse, more, hm, hf⟩
    | reply => exact ⟨hd, hse, more, hm, hf⟩

/-- Where things are while goroutine `t` tries to get `w` off. -/
structure Trying (W : Peer σ) (R : Room) (b : Sched.State T) (srv : σ) (t : T) (c : Call Out) (w : Bytes) (bound : Nat)
    (q : State T σ) (taken y : Bytes) : Prop where
  pc : ToDo c w (q.users.pc t) y
  parts : w = taken ++ q.pipe.up ++ y
  replies : Replies W srv taken (q.pipe.down ++ q.pipe.owed) q.pipe.srv q.pipe.got
  up : q.pipe.up.length ≤ R.up
  down : q.pipe.down.length ≤ R.down
  log : q.users.log = b.log
  bound : taken.length < bound

/-- **C79 (too much).** A goroutine takes the mutex of a quiet connection to send a request `u ++ v`, where the replies to
`u` do not fit into the connection and `v` does not fit into the other direction.  Then its call never succeeds, and
as long as it has not failed nobody else's call returns; when nothing more happens it and the server wait for each
other.  It fails only by the other side hanging up or a deadline, and after it every call fails. -/
theorem C79_too_much {P : Sched.Params T} {W : Peer σ} (hW : Framed W) {R : Room} (hR : R.Some) {s0 : σ}
    (hs : Says W s0 P.resp) (hcl : ∀ t, ¬ P.closers t) {q q' : State T σ} (h : Later P W R (init s0) q)
    (hq : q.pipe.Quiet) {t : T} {c : Call Out} (hp : q.users.pc t = .locked c) {u v o rest : Bytes} {s1 : σ}
    (hw : c.wire = .ok (u ++ v)) (hu : Replies W q.pipe.srv u o s1 rest) (ho : R.down < o.length)
    (hv : R.up + R.ahead ≤ v.length) (hl : Later P W R q q') :
    (q'.users.log = q.users.log ∧ q'.users.lock = some t ∧ (AtRest P W R q' → Deadlock R q' t c)) ∨
    ((∃ more, q'.users.log = q.users.log ++ (c, .err .io) :: more ∧ ∀ e ∈ more, Fails e.1 e.2)
      ∧ (q'.users.ended = true ∨ P.timeout = true ∧ P.late = true)) := by
  have rem : ∀ {q2 tk y}, Trying W R q.users q.pipe.srv t c (u ++ v) (u.length + R.ahead) q2 tk y → y ≠ [] := by
    intro q2 tk y hT e
    have h1 := congrArg List.length hT.parts
    have h2 := hT.up
    have h3 := hT.bound
    rw [e] at h1
    simp at h1
    omega
  have key : (∃ tk y, Trying W R q.users q.pipe.srv t c (u ++ v) (u.length + R.ahead) q' tk y) ∨
      (Dead q'.users ∧ ∃ more, q'.users.log = q.users.log ++ (c, .err .io) :: more ∧ ∀ e ∈ more, Fails e.1 e.2) := by
    induction hl with
    | refl =>
      refine .inl ⟨[], u ++ v, by rw [hp]; exact .locked, by rw [hq.1]; simp, ?_, by rw [hq.1]; simp, by rw [hq.2.2.2]; simp, rfl, ?_⟩
      · rw [hq.2.1, hq.2.2.1, hq.2.2.2]; exact .done _ _
      · have := hR.2.2
        simp; omega
    | @step q1 q2 hl1 hst ih =>
      have hr1 := C79_refines hW hs (h.trans hl1)
      have hex := Sched.excl hr1
      have hun := Sched.unclosed hcl hr1
      rcases ih with ⟨tk, y, hT⟩ | ⟨hd, more, hm, hf⟩
      · have hy := rem hT
        obtain ⟨t1, t2, t3, t4, t5, t6, t7⟩ := hT
        have only : ∀ z, (q1.users.pc z).inside = true → z = t := fun z hi =>
          Option.some.inj (((hex z).1 hi).symm.trans ((hex t).1 t1.inside))
        cases hst with
        | other s hs1 e1 e2 =>
          rcases holds hex hun (fun _ => hw) t1 hy hs1 e1 with ⟨a1, a2⟩ | ⟨a1, _⟩
          · exact .inl ⟨tk, y, a1, t2, t3, t4, t5, a2.trans t6, t7⟩
          · refine .inr ⟨?_, [], ?_, by simp⟩
            · rw [a1]
              refine ⟨rfl, fun z d hz => ?_⟩
              have hz' : (q1.users.goto t .idle).pc z = .reading d := hz
              rw [Sched.goto_pc] at hz'
              by_cases hzt : z = t
              · simp only [hzt, if_true] at hz'; cases hz'
              · simp only [hzt, if_false] at hz'
                exact hzt (only z (by rw [hz']; rfl))
            · rw [a1, ← t6]; rfl
        | send z d x y' h1 _ _ h4 =>
          obtain rfl := only z (by rw [h1]; rfl)
          rw [h1] at t1
          cases t1
          refine .inl ⟨tk, y', ?_, by rw [t2]; simp, t3, by simp; omega, t5, t6, t7⟩
          show ToDo c _ ((q1.users.goto z (.writing c y')).pc z) _
          rw [Sched.goto_pc]
          simp only [if_true]
          exact .writing _
        | hear z d x y' h1 _ _ _ =>
          obtain rfl := only z (by rw [h1]; rfl)
          rw [h1] at t1
          cases t1
        | take a b hab ha hla ho' hn =>
          refine .inl ⟨tk ++ a, y, t1, by rw [t2, hab]; simp, t3.append hW a, by rw [hab] at t4; simp at t4 ⊢; omega, t5, t6, ?_⟩
          have hlt : tk.length < u.length := by
            apply Classical.byContradiction; intro hge
            have hpre : u <+: tk := by
              have h1 : u <+: u ++ v := List.prefix_append _ _
              have h2 : tk <+: u ++ v := by rw [t2, List.append_assoc]; exact List.prefix_append _ _
              exact List.prefix_of_prefix_length_le h1 h2 (by omega)
            obtain ⟨z, rfl⟩ := hpre
            have := ((hu.append hW z).max t3 hn).length_le
            rw [ho'] at this
            simp at this
            omega
          simp; omega
        | handle o' s rest' ho' hn =>
          refine .inl ⟨tk, y, t1, t2, ?_, t4, t5, t6, t7⟩
          rw [ho', List.append_nil] at t3
          have := t3.trans (.more hn (.done s rest'))
          simpa using this
        | reply x o' ho' hr =>
          refine .inl ⟨tk, y, t1, t2, ?_, t4, by simp; omega, t6, t7⟩
          rw [ho'] at t3
          simpa using t3
      · right
        cases hst with
        | other s hs1 e1 e2 =>
          obtain ⟨hd', hlog⟩ := dead_step hun hd hs1
          refine ⟨hd', ?_⟩
          rcases hlog with e | ⟨d, r, e, hfd⟩
          · exact ⟨more, e.trans hm, hf⟩
          · refine ⟨more ++ [(d, r)], by show s.log = _; rw [e, hm]; simp, fun x hx => ?_⟩
            rcases List.mem_append.1 hx with hx | hx
            · exact hf x hx
            · rw [List.mem_singleton.1 hx]; exact hfd
        | send z d x y' _ _ h2 => rw [hd.1] at h2; cases h2
        | hear z d x y' h2 => exact absurd h2 (hd.2 z d)
        | take => exact ⟨hd, more, hm, hf⟩
        | handle => exact ⟨hd, more, hm, hf⟩
        | reply => exact ⟨hd, more, hm, hf⟩
  have hr' := C79_refines hW hs (h.trans hl)
  rcases key with ⟨tk, y, hT⟩ | ⟨hd, hm⟩
  · have hex := Sched.excl hr'
    refine .inl ⟨hT.log, (hex t).1 hT.pc.inside, fun hrest => ?_⟩
    rcases C79_stop hW hR hs (h.trans hl) (Sched.unclosed hcl hr').fine hrest with h1 | ⟨z, d, _, _, _, hoth, h2⟩
    · have := hT.pc.inside
      rw [h1 t] at this; cases this
    · have hz : z = t := by
        apply Classical.byContradiction; intro hne
        have := hT.pc.inside
        rcases hoth t (fun e => hne e.symm) with e | ⟨_, e⟩ <;> rw [e] at this <;> cases this
      subst hz
      rcases h2 with ⟨h3, _⟩ | h3
      · have := hT.pc
        rw [h3] at this; cases this
      · obtain ⟨⟨x, y2, h4⟩, h5⟩ := h3
        have := hT.pc
        rw [h4] at this
        cases this
        exact ⟨⟨x, y2, h4⟩, h5⟩
  · exact .inr ⟨hm, werr_cause hcl hr' hd.1⟩

/-- **C79 (too much, with `Timeout`).** If `Timeout` is set and deadlines do pass, that call returns an I/O error in the end,
and so does every call that the other goroutines make meanwhile and afterwards. -/
theorem C79_timeout {P : Sched.Params T} {W : Peer σ} (hW : Framed W) {R : Room} (hR : R.Some) {s0 : σ}
    (hs : Says W s0 P.resp) (hcl : ∀ t, ¬ P.closers t) (hto : P.timeout = true ∧ P.late = true) {q q' : State T σ}
    (h : Later P W R (init s0) q)
    (hq : q.pipe.Quiet) {t : T} {c : Call Out} (hp : q.users.pc t = .locked c) {u v o rest : Bytes} {s1 : σ}
    (hw : c.wire = .ok (u ++ v)) (hu : Replies W q.pipe.srv u o s1 rest) (ho : R.down < o.length)
    (hv : R.up + R.ahead ≤ v.length) (hl : Later P W R q q') (hrest : AtRest P W R q') :
    AllDone q'.users ∧ ∃ more, q'.users.log = q.users.log ++ (c, .err .io) :: more ∧ ∀ e ∈ more, Fails e.1 e.2 := by
  have hr' := C79_refines hW hs (h.trans hl)
  have hall := C79_always hW hR hs (h.trans hl) (Sched.unclosed hcl hr').fine (.inr (.inr hto)) hrest
  refine ⟨hall, ?_⟩
  rcases C79_too_much hW hR hs hcl h hq hp hw hu ho hv hl with ⟨_, h2, _⟩ | ⟨h2, _⟩
  · have := (Sched.excl hr' t).2 h2
    rw [hall t] at this; cases this
  · exact h2

/-- **C79 (for ever).** A deadlock lasts until the other side hangs up: without deadlines nothing is sent and no call of any
goroutine returns. -/
theorem C79_for_ever {P : Sched.Params T} {W : Peer σ} (hW : Framed W) {R : Room} {s0 : σ}
    (hs : Says W s0 P.resp) (hcl : ∀ t, ¬ P.closers t) (hlate : ¬ (P.timeout = true ∧ P.late = true)) {q q' : State T σ}
    (h : Later P W R (init s0) q) {t : T} {c : Call Out} (hd : Deadlock R q t c)
    (hl : Later P W R q q') : q'.users.ended = true ∨
      Deadlock R q' t c ∧ q'.users.log = q.users.log ∧ q'.users.sent = q.users.sent := by
  have hR : q.pipe.up.length = R.up := hd.2.1
  obtain ⟨⟨x, y, hp⟩, h1, h2, h3⟩ := hd
  suffices key : q'.users.ended = true ∨ (q'.pipe = q.pipe ∧ q'.users.pc t = .writing c (x :: y) ∧
      q'.users.log = q.users.log ∧ q'.users.sent = q.users.sent) by
    rcases key with e | ⟨e1, e2, e3, e4⟩
    · exact .inl e
    · exact .inr ⟨⟨⟨x, y, e2⟩, by rw [e1]; exact h1, by rw [e1]; exact h2, by rw [e1]; exact h3⟩, e3, e4⟩
  induction hl with
  | refl => exact .inr ⟨rfl, hp, rfl, rfl⟩
  | @step q1 q2 hl1 hst ih =>
    have hr1 := C79_refines hW hs (h.trans hl1)
    have hex := Sched.excl hr1
    have hun := Sched.unclosed hcl hr1
    have ends : q1.users.ended = true → q2.users.ended = true := by
      intro he
      cases hst with
      | other s hs1 _ _ =>
        cases hs1 <;> first | exact he | rfl
      | _ => exact he
    rcases ih with e | ⟨e1, e2, e3, e4⟩
    · exact .inl (ends e)
    · by_cases hen : q1.users.ended = true
      · exact .inl (ends hen)
      have only : ∀ z, (q1.users.pc z).inside = true → z = t := fun z hi =>
        Option.some.inj (((hex z).1 hi).symm.trans ((hex t).1 (by rw [e2]; rfl)))
      cases hst with
      | other s hs1 a1 a2 =>
        rcases holds (w := []) hex hun (fun hn => absurd e2 (hn _)) (by rw [e2]; exact .writing _) (by simp) hs1 a1 with ⟨b1, b2⟩ | ⟨_, b2⟩
        · right
          refine ⟨e1, ?_, b2.trans e3, a1.trans e4⟩
          show s.pc t = _
          generalize s.pc t = z at b1
          cases b1
          rfl
        · exfalso
          rcases b2 with b | b | b
          · exact hen b
          · rcases werr_cause hcl hr1 b with b | b
            · exact hen b
            · exact hlate b
          · exact hlate b
      | send z d x' y' g1 _ _ g4 =>
        rw [e1] at g4; omega
      | hear z d x' y' g1 _ _ _ =>
        obtain rfl := only z (by rw [g1]; rfl)
        rw [e2] at g1; cases g1
      | take a b hab ha hla ho' hn => rw [e1] at ho'; exact absurd ho' h2
      | handle o' s rest' ho' hn => rw [e1] at ho'; exact absurd ho' h2
      | reply x o' ho' hr => rw [e1] at hr; omega

end Narrow
end Verif
