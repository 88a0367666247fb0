import Verif.Props.Joint
/-!
C81, second part: what goroutines that share a connection put on it, and what becomes of their calls.
-/

namespace Verif
namespace Joint
open Srv Spec Props
open Sched (Params Reach Excl Known RawInv excl known rawInv goto_pc)

variable {T : Type} [DecidableEq T]

/-! ### What is sent is requests, one after the other -/

/-- The call being sent, and what remains to be sent of it. -/
def sending : Sched.At → Option (Call Out × Bytes)
  | .writing c x => some (c, x)
  | _ => none

/-- What has been sent is the requests of some calls, and a part of one more. -/
def Sending (P : Params T) (s : Sched.State T) : Prop :=
  ∃ cs part, (∀ c ∈ cs, P.calls c) ∧ s.sent = wiresOf cs ++ part
    ∧ (part = [] ∨ ∃ c w, P.calls c ∧ c.wire = .ok w ∧ part <+: w)
    ∧ (s.werr = false → (∀ t c todo, sending (s.pc t) = some (c, todo) → c.wire = .ok (part ++ todo))
      ∧ ((∀ t, sending (s.pc t) = none) → part = []))

theorem Sending.frame {P : Params T} {s s' : Sched.State T} (h : Sending P s) (h1 : s'.sent = s.sent) (h2 : s'.werr = s.werr)
    (h3 : ∀ t, sending (s'.pc t) = sending (s.pc t)) : Sending P s' := by
  obtain ⟨cs, part, a, b, c, d⟩ := h
  refine ⟨cs, part, a, by rw [h1]; exact b, c, ?_⟩
  rw [h2]
  simp only [h3]
  exact d

theorem Sending.goto {P : Params T} {s : Sched.State T} (h : Sending P s) {t : T} {a : Sched.At}
    (ha : sending a = sending (s.pc t)) : Sending P (s.goto t a) := by
  refine h.frame rfl rfl fun u => ?_
  rw [goto_pc]
  by_cases hu : u = t
  · subst hu; simp only [if_true, ha]
  · simp only [hu, if_false]

theorem sending_inside {a : Sched.At} {x : Call Out × Bytes} (h : sending a = some x) : a.inside = true := by
  cases a <;> first | rfl | cases h

theorem Sending.ret {P : Params T} {s : Sched.State T} (h : Sending P s) {t : T} (ha : sending (s.pc t) = none) (c : Call Out)
    (r : Res Out) : Sending P (s.ret t c r) := by
  refine (h.goto (t := t) (a := .idle) (by rw [ha]; rfl)).frame rfl rfl fun _ => rfl

theorem sending_step {P : Params T} {s s' : Sched.State T} (he : Excl s) (hk : Known P s) (h : Sending P s) (hs : Sched.Step P s s') :
    Sending P s' := by
  have begin : ∀ (t : T) (c : Call Out) (w : Bytes), (s.pc t).inside = true → sending (s.pc t) = none → c.wire = .ok w →
      Sending P (s.goto t (.writing c w)) := by
    intro t c w hin hn hw
    obtain ⟨cs, part, a, b, d, e⟩ := h
    have none : ∀ u, sending (s.pc u) = none := by
      intro u
      cases hx : sending (s.pc u) with
      | none => rfl
      | some x =>
        by_cases hu : u = t
        · subst hu; rw [hn] at hx; cases hx
        · have := sending_inside hx
          rw [(he u).1 this |>.symm.trans ((he t).1 hin) |> Option.some.inj] at hu
          exact absurd rfl hu
    refine ⟨cs, part, a, b, d, fun hwerr => ?_⟩
    have hp := (e hwerr).2 none
    subst hp
    refine ⟨fun u c' todo hu => ?_, fun _ => rfl⟩
    rw [goto_pc] at hu
    by_cases hut : u = t
    · rw [if_pos hut] at hu
      cases hu
      exact hw
    · rw [if_neg hut, none u] at hu; cases hu
  cases hs with
  | call t c hp hc => exact h.goto (by rw [hp]; rfl)
  | lock t c hp hl => exact (h.goto (t := t) (a := .locked c) (by rw [hp]; rfl)).frame rfl rfl (fun _ => rfl)
  | refuse t c hp hkind hraw => exact h.ret (by rw [hp]; rfl) _ _
  | pass t c hp _ => exact h.goto (by rw [hp]; rfl)
  | writeDeadlineNil t c hp _ _ => exact h.frame rfl rfl (fun _ => rfl)
  | writeDeadline t c hp _ _ => exact h.goto (by rw [hp]; rfl)
  | readDeadlineNil t c hp _ => exact h.frame rfl rfl (fun _ => rfl)
  | readDeadline t c w hp _ hw => exact begin t c w (by rw [hp]; rfl) (by rw [hp]; rfl) hw
  | noDeadline t c w hp _ hw => exact begin t c w (by rw [hp]; rfl) (by rw [hp]; rfl) hw
  | unencodable t c e hp hw => exact h.ret (by rcases hp with ⟨hp, _⟩ | ⟨hp, _⟩ <;> rw [hp] <;> rfl) _ _
  | unencodablePanic t c hp hw => exact h.ret (by rcases hp with ⟨hp, _⟩ | ⟨hp, _⟩ <;> rw [hp] <;> rfl) _ _
  | write t c x y hp ho hwerr =>
    obtain ⟨cs, part, a, b, d, e⟩ := h
    have hw := (e hwerr).1 t c (x ++ y) (by rw [hp]; rfl)
    refine ⟨cs, part ++ x, a, by show s.sent ++ x = _; rw [b, List.append_assoc],
      .inr ⟨c, _, hk t c (by rw [hp]; rfl), hw, ⟨y, by simp⟩⟩, fun _ => ⟨fun u c' todo hu => ?_, fun hn => ?_⟩⟩
    · have hu : sending (if u = t then _ else s.pc u) = _ := hu
      by_cases hut : u = t
      · rw [if_pos hut] at hu
        cases hu
        rw [hw, List.append_assoc]
      · rw [if_neg hut] at hu
        have h1 := (he u).1 (sending_inside hu)
        have h2 := (he t).1 (by rw [hp]; rfl)
        rw [h1] at h2
        exact absurd (Option.some.inj h2) hut
    · have hn : sending (if t = t then _ else s.pc t) = none := hn t
      rw [if_pos rfl] at hn
      cases hn
  | writeFails t c x hp hx =>
    obtain ⟨cs, part, a, b, d, e⟩ := h
    exact ⟨cs, part, a, b, d, fun hw => by cases hw⟩
  | written t c hp hwerr =>
    obtain ⟨cs, part, a, b, d, e⟩ := h
    have hw := (e hwerr).1 t c [] (by rw [hp]; rfl)
    rw [List.append_nil] at hw
    refine ⟨cs ++ [c], [], ?_, ?_, .inl rfl, fun _ => ⟨fun u c' todo hu => ?_, fun _ => rfl⟩⟩
    · intro y hy
      rcases List.mem_append.1 hy with hy | hy
      · exact a y hy
      · rw [List.mem_singleton.1 hy]; exact hk t c (by rw [hp]; rfl)
    · show s.sent = _
      rw [b, Sched.wiresOf_append, List.append_nil]
      congr 1
      show part = (match c.wire with | .ok w => w | _ => []) ++ []
      rw [hw, List.append_nil]
    · rw [goto_pc] at hu
      by_cases hut : u = t
      · rw [if_pos hut] at hu; cases hu
      · rw [if_neg hut] at hu
        have h1 := (he u).1 (sending_inside hu)
        have h2 := (he t).1 (by rw [hp]; rfl)
        rw [h1] at h2
        exact absurd (Option.some.inj h2) hut
  | arrive x y _ _ hx => exact h.frame rfl rfl (fun _ => rfl)
  | hangUp => exact h.frame rfl rfl (fun _ => rfl)
  | read t c hp hio => exact (h.ret (t := t) (by rw [hp]; rfl) c .panic).frame rfl rfl (fun _ => rfl)
  | readFails t c hp _ hx => exact (h.ret (t := t) (by rw [hp]; rfl) c .panic).frame rfl rfl (fun _ => rfl)
  | readTimeout t c hp _ h1 h2 => exact (h.ret (t := t) (by rw [hp]; rfl) c .panic).frame rfl rfl (fun _ => rfl)
  | callClose t hp _ => exact h.goto (by rw [hp]; rfl)
  | closeAgain t hp _ _ => exact h.goto (by rw [hp]; rfl)
  | closeGo t hp _ => exact h.goto (by rw [hp]; rfl)
  | closeRawNil t hp _ => exact h.frame rfl rfl (fun _ => rfl)
  | closeRaw t hp _ =>
    refine (h.goto (t := t) (a := if P.kind = .text then .clearRaw else .idle) ?_).frame rfl rfl (fun _ => rfl)
    rw [hp]; split <;> rfl
  | clearRaw t hp => exact (h.goto (t := t) (a := .closeChan) (by rw [hp]; rfl)).frame rfl rfl (fun _ => rfl)
  | closeChanPanic t hp _ => exact h.frame rfl rfl (fun _ => rfl)
  | closeChan t hp _ _ => exact (h.goto (t := t) (a := .clearChan) (by rw [hp]; rfl)).frame rfl rfl (fun _ => rfl)
  | clearChan t hp => exact (h.goto (t := t) (a := .idle) (by rw [hp]; rfl)).frame rfl rfl (fun _ => rfl)

theorem sent_reach {P : Params T} {s : Sched.State T} (h : Reach P s) : Sending P s := by
  induction h with
  | init => exact ⟨[], [], by simp, rfl, .inl rfl, fun _ => ⟨fun _ _ _ (h : none = some _) => (by cases h), fun _ => rfl⟩⟩
  | step hr hs ih => exact sending_step (excl hr) (known hr) ih hs

/-- What has been sent is an initial part of the requests of some calls. -/
theorem sent_prefix {P : Params T} {s : Sched.State T} (h : Reach P s) :
    ∃ cs, (∀ c ∈ cs, P.calls c) ∧ s.sent <+: wiresOf cs := by
  obtain ⟨cs, part, a, b, c, _⟩ := sent_reach h
  rcases c with rfl | ⟨c, w, h1, h2, h3⟩
  · exact ⟨cs, a, by rw [b, List.append_nil]; exact List.prefix_refl _⟩
  · refine ⟨cs ++ [c], ?_, ?_⟩
    · intro y hy
      rcases List.mem_append.1 hy with hy | hy
      · exact a y hy
      · rw [List.mem_singleton.1 hy]; exact h1
    · rw [b, Sched.wiresOf_append]
      have : wiresOf [c] = w := by
        show (match c.wire with | .ok w => w | _ => []) ++ [] = w
        rw [h2, List.append_nil]
      rw [this]
      exact (List.prefix_append_right_inj _).2 h3

/-! ### The steps that do not depend on the server -/

/-- What is sent stays sent, and a closed connection stays closed. -/
theorem sched_mono {P : Params T} {s s' : Sched.State T} (hs : Sched.Step P s s') :
    s.sent <+: s'.sent ∧ (s.isOpen = false → s'.isOpen = false) ∧ s.log <+: s'.log := by
  have pre : ∀ l : Bytes, l <+: l := fun _ => List.prefix_refl _
  cases hs <;> refine ⟨?_, ?_, ?_⟩ <;>
    first | exact List.prefix_append _ _ | exact pre _ | exact List.prefix_refl _ | exact id | exact fun _ => rfl

/-- A step with another server that has said at least as much. -/
theorem step_other {P : Params T} {s s' : Sched.State T} {f g : Bytes → Bytes} (hs : Sched.Step { P with resp := f } s s')
    (h : s.isOpen = true → s.ended = false → ∀ x y, f s.sent = s.got ++ x ++ y → ∃ y', g s.sent = s.got ++ x ++ y') :
    Sched.Step { P with resp := g } s s' := by
  cases hs with
  | arrive x y ho he hx =>
    obtain ⟨y', hy⟩ := h ho he x y hx
    exact .arrive s x y' ho he hy
  | call t c hp hc => exact .call s t c hp hc
  | lock t c hp hl => exact .lock s t c hp hl
  | refuse t c hp hkind hraw => exact .refuse s t c hp hkind hraw
  | pass t c hp h1 => exact .pass s t c hp h1
  | writeDeadlineNil t c hp h1 h2 => exact .writeDeadlineNil s t c hp h1 h2
  | writeDeadline t c hp h1 h2 => exact .writeDeadline s t c hp h1 h2
  | readDeadlineNil t c hp h1 => exact .readDeadlineNil s t c hp h1
  | readDeadline t c w hp h1 hw => exact .readDeadline s t c w hp h1 hw
  | noDeadline t c w hp h1 hw => exact .noDeadline s t c w hp h1 hw
  | unencodable t c e hp hw => exact .unencodable s t c e hp hw
  | unencodablePanic t c hp hw => exact .unencodablePanic s t c hp hw
  | write t c x y hp h1 h2 => exact .write s t c x y hp h1 h2
  | writeFails t c x hp hx => exact .writeFails s t c x hp hx
  | written t c hp h1 => exact .written s t c hp h1
  | hangUp => exact .hangUp s
  | read t c hp hio => exact .read s t c hp hio
  | readFails t c hp h1 hx => exact .readFails s t c hp h1 hx
  | readTimeout t c hp h1 h2 h3 => exact .readTimeout s t c hp h1 h2 h3
  | callClose t hp h1 => exact .callClose s t hp h1
  | closeAgain t hp h1 h2 => exact .closeAgain s t hp h1 h2
  | closeGo t hp h1 => exact .closeGo s t hp h1
  | closeRawNil t hp h1 => exact .closeRawNil s t hp h1
  | closeRaw t hp h1 => exact .closeRaw s t hp h1
  | clearRaw t hp => exact .clearRaw s t hp
  | closeChanPanic t hp h1 => exact .closeChanPanic s t hp h1
  | closeChan t hp h1 h2 => exact .closeChan s t hp h1 h2
  | clearChan t hp => exact .clearChan s t hp

/-! ### Results and failures -/

/-- As `Sched.Told`; and no call among the good ones has failed. -/
def Fair (P : Params T) (s : Sched.State T) : Prop :=
    (Sched.Fit P s ∧ s.werr = false ∧ ∀ e ∈ s.log, e.2 ≠ .err .io) ∨
    (∃ good c r bad, s.log = good ++ (c, r) :: bad ∧ Sched.Sequential P.resp good ∧ Sched.Fails r ∧ Sched.Trouble P s ∧
      (∀ e ∈ good, e.2 ≠ .err .io) ∧
      (¬ (P.timeout = true ∧ P.late = true) → (∀ e ∈ bad, Sched.Fails e.2 ∨ refused e.1 e.2) ∧ Sched.Doomed P s))

theorem io_step {P : Params T} {s s' : Sched.State T} (hwire : ∀ c, P.calls c → ∃ w, c.wire = .ok w) (he : Excl s) (hk : Known P s)
    (hw : s.werr = false) (hs : Sched.Step P s s') :
    (∀ e ∈ s'.log, e ∈ s.log ∨ e.2 ≠ .err .io) ∨
    (∃ c r, s'.log = s.log ++ [(c, r)] ∧ Sched.Fails r ∧ Sched.Trouble P s' ∧
      (¬ (P.timeout = true ∧ P.late = true) → Sched.Doomed P s')) := by
  have snoc : ∀ (c : Call Out) (r : Res Out), r ≠ .err .io → ∀ e ∈ s.log ++ [(c, r)], e ∈ s.log ∨ e.2 ≠ .err .io := by
    intro c r hr e he
    rcases List.mem_append.1 he with he | he
    · exact .inl he
    · rw [List.mem_singleton.1 he]; exact .inr hr
  have wired : ∀ (t : T) (c : Call Out), (s.pc t = .writeDeadline c ∧ P.timeout = false ∨ s.pc t = .readDeadline c ∧ s.raw = true) →
      ∃ w, c.wire = .ok w := by
    intro t c hp
    exact hwire c (hk t c (by rcases hp with ⟨hp, _⟩ | ⟨hp, _⟩ <;> rw [hp] <;> rfl))
  cases hs with
  | refuse t c hp hkind hraw => exact .inl (snoc c _ (by intro h; cases h))
  | unencodable t c e hp hx => obtain ⟨w, h⟩ := wired t c hp; rw [h] at hx; cases hx
  | unencodablePanic t c hp hx => exact .inl (snoc c _ (by intro h; cases h))
  | read t c hp hio => exact .inl (snoc c _ hio)
  | writeFails t c x hp hx =>
    refine .inr ⟨c, _, rfl, .inl rfl, ?_, fun _ => .inr (.inl ⟨rfl, fun u e hc => ?_⟩)⟩
    · rw [hw] at hx
      rcases hx with h | h | h | h
      · exact .inl h
      · exact .inr (.inl h)
      · cases h
      · exact .inr (.inr h)
    · have h1 := Sched.ret_quiet he (t := t) (by rw [hp]; rfl) c (.err .io) u
      rw [show (s.ret t c (.err .io)).pc u = .reading e from hc] at h1
      cases h1
  | readFails t c hp _ hx =>
    exact .inr ⟨c, _, rfl, .inl rfl, hx.elim .inl (fun h => .inr (.inl h)), fun _ => .inr (.inr ⟨rfl, hx.symm⟩)⟩
  | readTimeout t c hp _ h1 h2 => exact .inr ⟨c, _, rfl, .inl rfl, .inr (.inr ⟨h1, h2⟩), fun h => absurd ⟨h1, h2⟩ h⟩
  | _ => exact .inl fun e he => .inl he

theorem fair_step {P : Params T} (hon : Online P.resp) (hst : ∀ c, P.calls c → Stable c.rd ∧ c.rd [] = (.err .io, []))
    (hwire : ∀ c, P.calls c → ∃ w, c.wire = .ok w) {s s' : Sched.State T} (he : Excl s) (hk : Known P s) (hri : RawInv s)
    (ih : Fair P s) (hs : Sched.Step P s s') : Fair P s' := by
  rcases ih with ⟨hf, hw, hn⟩ | ⟨good, c, r, bad, h1, h2, h3, h4, h0, h5⟩
  · rcases Sched.fit_step hon (fun c hc => (hst c hc).1) he hk hri hf hw hs with h | ⟨c, r, h1, h2, h3, h4⟩
    · rcases io_step hwire he hk hw hs with h' | ⟨c, r, h1, h2, h3, h4⟩
      · refine .inl ⟨h.1, h.2, fun e he => ?_⟩
        rcases h' e he with h' | h'
        · exact hn e h'
        · exact h'
      · exact .inr ⟨s.log, c, r, [], h1, hf.log, h2, h3, hn, fun hx => ⟨by simp, h4 hx⟩⟩
    · exact .inr ⟨s.log, c, r, [], h1, hf.log, h2, h3, hn, fun hx => ⟨by simp, h4 hx⟩⟩
  · by_cases hl : P.timeout = true ∧ P.late = true
    · rcases Sched.log_step hs with h | ⟨e, h⟩
      · exact .inr ⟨good, c, r, bad, by rw [h, h1], h2, h3, Sched.trouble_step h4 hs, h0, fun hc => absurd hl hc⟩
      · exact .inr ⟨good, c, r, bad ++ [e], by rw [h, h1]; simp, h2, h3, Sched.trouble_step h4 hs, h0, fun hc => absurd hl hc⟩
    · obtain ⟨hb, hd⟩ := h5 hl
      obtain ⟨hd', hlog⟩ := Sched.doomed_step hk (fun c hc => (hst c hc).2) hd hs
      rcases hlog with h | ⟨d, q, h, hq⟩
      · exact .inr ⟨good, c, r, bad, by rw [h, h1], h2, h3, Sched.trouble_step h4 hs, h0, fun _ => ⟨hb, hd'⟩⟩
      · refine .inr ⟨good, c, r, bad ++ [(d, q)], by rw [h, h1]; simp, h2, h3, Sched.trouble_step h4 hs, h0, fun _ => ⟨?_, hd'⟩⟩
        intro e he
        rcases List.mem_append.1 he with he | he
        · exact hb e he
        · rw [List.mem_singleton.1 he]; exact hq

theorem fair {P : Params T} (hon : Online P.resp) (hst : ∀ c, P.calls c → Stable c.rd ∧ c.rd [] = (.err .io, []))
    (hwire : ∀ c, P.calls c → ∃ w, c.wire = .ok w) {s : Sched.State T} (h : Reach P s) : Fair P s := by
  induction h with
  | init => exact .inl ⟨Sched.fit_init P hon, rfl, by simp [Sched.init]⟩
  | step hr hs ih => exact fair_step hon hst hwire (excl hr) (known hr) (rawInv hr) ih hs

end Joint
end Verif
