import Verif.Props.Sched
/-!
C35: Close while operations are under way; C54: what a read timeout does to the connection.
-/

namespace Verif
namespace Sched
open Spec
open Life (Kind errClosed errAlready)

variable {T : Type} [DecidableEq T]

/-! ## C35: results -/

/-- **C35**: Close at any moment, by any goroutine, any number of times: the operations that
returned are some with the result of a sequential execution, then some that failed with an error. -/
theorem C35_clean (P : Params T) (hon : Online P.resp) (hc : ∀ c, P.calls c → ClientCall P.kind c)
    (ht : ¬ (P.timeout = true ∧ P.late = true)) (s : State T) (h : Reach P s) :
    ∃ n, ((s.log.take n).map (·.2)) = oneByOne P.resp [] [] ((s.log.take n).map (·.1)) ∧
      ∀ e ∈ s.log.drop n, e.2 = .err .io ∨ e.2 = .err errClosed ∨ refused e.1 e.2 := by
  obtain ⟨good, bad, h1, h2, _, h4⟩ := C30_linear P hon hc s h
  refine ⟨good.length, by rw [h1, List.take_left]; exact h2, fun e he => ?_⟩
  rw [h1, List.drop_left] at he
  rcases h4 ht e he with (h | h) | h
  · exact .inl h
  · exact .inr (.inl h)
  · exact .inr (.inr h)

/-- **C35**: once the connection is closed an operation that waits for a reply or writes its request
does not wait for the other side: it can return at once. -/
theorem C35_unblocked (P : Params T) (s : State T) (ho : s.isOpen = false) (t : T) (c : Call Out)
    (ht : s.pc t = .reading c ∨ ∃ x, s.pc t = .writing c x) :
    ∃ s' r, Step P s s' ∧ s'.pc t = .idle ∧ s'.lock = none ∧ s'.log = s.log ++ [(c, r)] := by
  have hpc : ∀ (r : Res Out), (s.ret t c r).pc t = .idle := by
    intro r
    show (s.goto t .idle).pc t = .idle
    rw [goto_pc]; simp
  rcases ht with ht | ⟨x, ht⟩
  · by_cases hio : (c.rd s.inbox).1 = .err .io
    · exact ⟨_, _, .readFails s t c ht hio (.inl ho), hpc (.err .io), rfl, rfl⟩
    · exact ⟨_, (c.rd s.inbox).1, .read s t c ht hio, hpc (c.rd s.inbox).1, rfl, rfl⟩
  · exact ⟨_, _, .writeFails s t c x ht (.inl ho), hpc (.err .io), rfl, rfl⟩

/-- **C30**: the mutex is only held by a goroutine that is inside an operation: no way of returning
leaves it locked. -/
theorem C30_no_lock_leak {P : Params T} {s : State T} (h : Reach P s) {t : T} (ht : s.lock = some t) :
    ∃ c, s.pc t = .locked c ∨ s.pc t = .writeDeadline c ∨ s.pc t = .readDeadline c ∨
      (∃ x, s.pc t = .writing c x) ∨ s.pc t = .reading c := by
  have := ((excl h) t).2 ht
  cases hp : s.pc t <;> rw [hp] at this <;> simp_all [At.inside]

/-! ## C35: panics -/

/-- Inside Close, past its first check. -/
def At.closing : At → Bool
  | .closeRaw | .clearRaw | .closeChan | .clearChan => true
  | _ => false

/-- Where a single closing goroutine can be. -/
structure CloseInv (P : Params T) (s : State T) : Prop where
  noDeadline : ∀ t c, s.pc t ≠ .readDeadline c
  who : ∀ t, (s.pc t = .close ∨ (s.pc t).closing = true) → P.closers t
  chan : ∀ t, (s.pc t).closing = true → s.closeCh = true
  rawThere : ∀ t, s.pc t = .closeRaw → s.raw = true
  notYet : ∀ t, (s.pc t = .closeRaw ∨ s.pc t = .clearRaw ∨ s.pc t = .closeChan) → s.chanClosed = false
  rawGone : s.raw = false → s.closeCh = true → ∃ t, s.pc t = .closeChan ∨ s.pc t = .clearChan
  chanGone : s.chanClosed = true → s.closeCh = true → ∃ t, s.pc t = .clearChan
  fine : s.crashed = false

/-- A goroutine outside Close moves. -/
theorem CloseInv.move {P : Params T} {s : State T} (h : CloseInv P s) {t : T} {a : At}
    (h1 : ∀ c, a ≠ .readDeadline c) (h2 : (s.pc t).closing = false) (h3 : a.closing = false)
    (h4 : a = .close → P.closers t) : CloseInv P (s.goto t a) := by
  have hpc : ∀ u, (s.goto t a).pc u = s.pc u ∨ (u = t ∧ (s.goto t a).pc u = a) := by
    intro u
    rw [goto_pc]
    by_cases hu : u = t
    · exact .inr ⟨hu, by simp [hu]⟩
    · exact .inl (by simp [hu])
  have hpc' : ∀ u, (s.pc u).closing = true → (s.goto t a).pc u = s.pc u := by
    intro u hu
    rw [goto_pc]
    by_cases hut : u = t
    · rw [hut, h2] at hu; cases hu
    · simp [hut]
  refine ⟨fun u c => ?_, fun u hu => ?_, fun u hu => ?_, fun u hu => ?_, fun u hu => ?_, fun x y => ?_, fun x y => ?_, h.fine⟩
  · rcases hpc u with e | ⟨_, e⟩
    · rw [e]; exact h.noDeadline u c
    · rw [e]; exact h1 c
  · rcases hpc u with e | ⟨rfl, e⟩
    · rw [e] at hu; exact h.who u hu
    · rw [e] at hu
      rcases hu with hu | hu
      · exact h4 hu
      · rw [h3] at hu; cases hu
  · rcases hpc u with e | ⟨rfl, e⟩
    · rw [e] at hu; exact h.chan u hu
    · rw [e, h3] at hu; cases hu
  · rcases hpc u with e | ⟨rfl, e⟩
    · rw [e] at hu; exact h.rawThere u hu
    · rw [e] at hu; rw [hu] at h3; cases h3
  · rcases hpc u with e | ⟨rfl, e⟩
    · rw [e] at hu; exact h.notYet u hu
    · rw [e] at hu; rcases hu with hu | hu | hu <;> rw [hu] at h3 <;> cases h3
  · obtain ⟨u, hu⟩ := h.rawGone x y
    refine ⟨u, ?_⟩
    rw [hpc' u (by rcases hu with hu | hu <;> rw [hu] <;> rfl)]
    exact hu
  · obtain ⟨u, hu⟩ := h.chanGone x y
    exact ⟨u, by rw [hpc' u (by rw [hu]; rfl)]; exact hu⟩

theorem CloseInv.frame {P : Params T} {s s' : State T} (h : CloseInv P s) (h1 : s'.pc = s.pc) (h2 : s'.closeCh = s.closeCh)
    (h3 : s'.raw = s.raw) (h4 : s'.chanClosed = s.chanClosed) (h5 : s'.crashed = s.crashed) : CloseInv P s' := by
  obtain ⟨a, b, c, d, e, f, g, i⟩ := h
  exact ⟨by rw [h1]; exact a, by rw [h1]; exact b, by rw [h1, h2]; exact c, by rw [h1, h3]; exact d,
    by rw [h1, h4]; exact e, by rw [h1, h2, h3]; exact f, by rw [h1, h2, h4]; exact g, by rw [h5]; exact i⟩

theorem closeInv_step {P : Params T} {s s' : State T} (hkind : P.kind = .text) (hto : P.timeout = false)
    (hone : ∀ t u, P.closers t → P.closers u → t = u) (h : CloseInv P s) (hs : Step P s s') : CloseInv P s' := by
  have other : ∀ {t u : T}, (s.pc t = .close ∨ (s.pc t).closing = true) → u ≠ t → (s.pc u).closing = false := by
    intro t u ht hu
    cases hc : (s.pc u).closing with
    | false => rfl
    | true => exact absurd (hone u t (h.who u (.inr hc)) (h.who t ht)) hu
  have othc : ∀ {t u : T}, (s.pc t = .close ∨ (s.pc t).closing = true) → u ≠ t → s.pc u ≠ .close := by
    intro t u ht hu hc
    exact absurd (hone u t (h.who u (.inl hc)) (h.who t ht)) hu
  cases hs with
  | call t c hp hc => exact h.move (by simp) (by rw [hp]; rfl) rfl (by simp)
  | lock t c hp hl => exact (h.move (t := t) (a := .locked c) (by simp) (by rw [hp]; rfl) rfl (by simp)).frame rfl rfl rfl rfl rfl
  | refuse t c hp _ _ => exact (h.move (t := t) (a := .idle) (by simp) (by rw [hp]; rfl) rfl (by simp)).frame rfl rfl rfl rfl rfl
  | pass t c hp _ => exact h.move (by simp) (by rw [hp]; rfl) rfl (by simp)
  | writeDeadlineNil t c hp hx _ => rw [hto] at hx; cases hx
  | writeDeadline t c hp hx _ => rw [hto] at hx; cases hx
  | readDeadlineNil t c hp _ => exact absurd hp (h.noDeadline t c)
  | readDeadline t c w hp _ _ => exact absurd hp (h.noDeadline t c)
  | noDeadline t c w hp _ _ => exact h.move (by simp) (by rw [hp]; rfl) rfl (by simp)
  | unencodable t c e hp _ =>
    exact (h.move (t := t) (a := .idle) (by simp) (by rcases hp with ⟨hp, _⟩ | ⟨hp, _⟩ <;> rw [hp] <;> rfl) rfl (by simp)).frame rfl rfl rfl rfl rfl
  | unencodablePanic t c hp _ =>
    exact (h.move (t := t) (a := .idle) (by simp) (by rcases hp with ⟨hp, _⟩ | ⟨hp, _⟩ <;> rw [hp] <;> rfl) rfl (by simp)).frame rfl rfl rfl rfl rfl
  | write t c x y hp _ _ => exact (h.move (t := t) (a := .writing c y) (by simp) (by rw [hp]; rfl) rfl (by simp)).frame rfl rfl rfl rfl rfl
  | writeFails t c x hp _ => exact (h.move (t := t) (a := .idle) (by simp) (by rw [hp]; rfl) rfl (by simp)).frame rfl rfl rfl rfl rfl
  | written t c hp _ => exact h.move (by simp) (by rw [hp]; rfl) rfl (by simp)
  | arrive x y _ _ _ => exact h.frame rfl rfl rfl rfl rfl
  | hangUp => exact h.frame rfl rfl rfl rfl rfl
  | read t c hp _ => exact (h.move (t := t) (a := .idle) (by simp) (by rw [hp]; rfl) rfl (by simp)).frame rfl rfl rfl rfl rfl
  | readFails t c hp _ _ => exact (h.move (t := t) (a := .idle) (by simp) (by rw [hp]; rfl) rfl (by simp)).frame rfl rfl rfl rfl rfl
  | readTimeout t c hp _ _ _ => exact (h.move (t := t) (a := .idle) (by simp) (by rw [hp]; rfl) rfl (by simp)).frame rfl rfl rfl rfl rfl
  | callClose t hp hcl => exact h.move (by simp) (by rw [hp]; rfl) rfl (fun _ => hcl)
  | closeAgain t hp _ _ => exact h.move (by simp) (by rw [hp]; rfl) rfl (by simp)
  | closeGo t hp hgo =>
    have hch := hgo hkind
    have ho : ∀ u, u ≠ t → (s.pc u).closing = false := fun u hu => other (.inl hp) hu
    have hcl := h.who t (.inl hp)
    have hnone : ∀ u, (s.pc u).closing = false := by
      intro u
      by_cases hu : u = t
      · rw [hu, hp]; rfl
      · exact ho u hu
    have hraw : s.raw = true := by
      cases hr : s.raw with
      | true => rfl
      | false =>
        obtain ⟨u, hu⟩ := h.rawGone hr hch
        have := hnone u
        rcases hu with hu | hu <;> rw [hu] at this <;> cases this
    have hcc : s.chanClosed = false := by
      cases hr : s.chanClosed with
      | false => rfl
      | true =>
        obtain ⟨u, hu⟩ := h.chanGone hr hch
        have := hnone u
        rw [hu] at this; cases this
    refine ⟨fun u c => ?_, fun u hu => ?_, fun _ _ => hch, fun _ _ => hraw, fun _ _ => hcc, ?_, ?_, h.fine⟩
    · rw [goto_pc]
      by_cases hu : u = t
      · simp [hu]
      · simp only [hu, if_false]; exact h.noDeadline u c
    · rw [goto_pc] at hu
      by_cases hut : u = t
      · rw [hut]; exact hcl
      · simp only [hut, if_false] at hu; exact h.who u hu
    · intro hr; rw [show s.raw = false from hr] at hraw; cases hraw
    · intro hr; rw [show s.chanClosed = true from hr] at hcc; cases hcc
  | closeRawNil t hp hr => rw [h.rawThere t hp] at hr; cases hr
  | closeRaw t hp hr =>
    have ho : ∀ u, u ≠ t → (s.pc u).closing = false := fun u hu => other (.inr (by rw [hp]; rfl)) hu
    have hcl := h.who t (.inr (by rw [hp]; rfl))
    have hch := h.chan t (by rw [hp]; rfl)
    have hcc := h.notYet t (.inl hp)
    rw [hkind]
    simp only [if_true]
    refine ⟨fun u c => ?_, fun u hu => ?_, fun _ _ => hch, fun _ _ => hr, fun _ _ => hcc, ?_, ?_, h.fine⟩
    · show (s.goto t .clearRaw).pc u ≠ _
      rw [goto_pc]
      by_cases hu : u = t
      · simp [hu]
      · simp only [hu, if_false]; exact h.noDeadline u c
    · replace hu : (s.goto t .clearRaw).pc u = .close ∨ ((s.goto t .clearRaw).pc u).closing = true := hu
      rw [goto_pc] at hu
      by_cases hut : u = t
      · rw [hut]; exact hcl
      · simp only [hut, if_false] at hu; exact h.who u hu
    · intro hx; rw [show s.raw = false from hx] at hr; cases hr
    · intro hx; rw [show s.chanClosed = true from hx] at hcc; cases hcc
  | clearRaw t hp =>
    have ho : ∀ u, u ≠ t → (s.pc u).closing = false := fun u hu => other (.inr (by rw [hp]; rfl)) hu
    have hcl := h.who t (.inr (by rw [hp]; rfl))
    have hch := h.chan t (by rw [hp]; rfl)
    have hcc := h.notYet t (.inr (.inl hp))
    refine ⟨fun u c => ?_, fun u hu => ?_, fun _ _ => hch, fun u hu => ?_, fun _ _ => hcc, fun _ _ => ⟨t, .inl ?_⟩, ?_, h.fine⟩
    · show (s.goto t .closeChan).pc u ≠ _
      rw [goto_pc]
      by_cases hu : u = t
      · simp [hu]
      · simp only [hu, if_false]; exact h.noDeadline u c
    · replace hu : (s.goto t .closeChan).pc u = .close ∨ ((s.goto t .closeChan).pc u).closing = true := hu
      rw [goto_pc] at hu
      by_cases hut : u = t
      · rw [hut]; exact hcl
      · simp only [hut, if_false] at hu; exact h.who u hu
    · replace hu : (s.goto t .closeChan).pc u = .closeRaw := hu
      rw [goto_pc] at hu
      by_cases hut : u = t
      · simp [hut] at hu
      · simp only [hut, if_false] at hu
        have := ho u hut
        rw [hu] at this; cases this
    · show (s.goto t .closeChan).pc t = _; rw [goto_pc]; simp
    · intro hx; rw [show s.chanClosed = true from hx] at hcc; cases hcc
  | closeChanPanic t hp hx =>
    have h1 := h.chan t (by rw [hp]; rfl)
    have h2 := h.notYet t (.inr (.inr hp))
    rw [h1, h2] at hx; simp at hx
  | closeChan t hp hc1 hc2 =>
    have ho : ∀ u, u ≠ t → (s.pc u).closing = false := fun u hu => other (.inr (by rw [hp]; rfl)) hu
    have hcl := h.who t (.inr (by rw [hp]; rfl))
    have noone : ∀ u, ((s.goto t .clearChan).pc u).closing = true → (s.goto t .clearChan).pc u = .clearChan := by
      intro u hu
      rw [goto_pc] at hu ⊢
      by_cases hut : u = t
      · simp [hut]
      · simp only [hut, if_false] at hu
        rw [ho u hut] at hu; cases hu
    have here : (s.goto t .clearChan).pc t = .clearChan := by rw [goto_pc]; simp
    refine ⟨fun u c => ?_, fun u hu => ?_, fun _ _ => hc1, fun u hu => ?_, fun u hu => ?_, fun _ _ => ⟨t, .inr here⟩,
      fun _ _ => ⟨t, here⟩, h.fine⟩
    · show (s.goto t .clearChan).pc u ≠ _
      rw [goto_pc]
      by_cases hu : u = t
      · simp [hu]
      · simp only [hu, if_false]; exact h.noDeadline u c
    · replace hu : (s.goto t .clearChan).pc u = .close ∨ ((s.goto t .clearChan).pc u).closing = true := hu
      rw [goto_pc] at hu
      by_cases hut : u = t
      · rw [hut]; exact hcl
      · simp only [hut, if_false] at hu; exact h.who u hu
    · replace hu : (s.goto t .clearChan).pc u = .closeRaw := hu
      have := noone u (by rw [hu]; rfl)
      rw [hu] at this; cases this
    · replace hu : (s.goto t .clearChan).pc u = .closeRaw ∨ (s.goto t .clearChan).pc u = .clearRaw
        ∨ (s.goto t .clearChan).pc u = .closeChan := hu
      have := noone u (by rcases hu with hu | hu | hu <;> rw [hu] <;> rfl)
      rcases hu with hu | hu | hu <;> rw [hu] at this <;> cases this
  | clearChan t hp =>
    have ho : ∀ u, u ≠ t → (s.pc u).closing = false := fun u hu => other (.inr (by rw [hp]; rfl)) hu
    have noone : ∀ u, ((s.goto t .idle).pc u).closing = false := by
      intro u
      rw [goto_pc]
      by_cases hut : u = t
      · simp [hut, At.closing]
      · simp only [hut, if_false]; exact ho u hut
    refine ⟨fun u c => ?_, fun u hu => ?_, fun u hu => ?_, fun u hu => ?_, fun u hu => ?_, fun _ hy => ?_,
      fun _ hy => ?_, h.fine⟩
    · show (s.goto t .idle).pc u ≠ _
      rw [goto_pc]
      by_cases hu : u = t
      · simp [hu]
      · simp only [hu, if_false]; exact h.noDeadline u c
    · replace hu : (s.goto t .idle).pc u = .close ∨ ((s.goto t .idle).pc u).closing = true := hu
      rw [goto_pc] at hu
      by_cases hut : u = t
      · simp [hut, At.closing] at hu
      · simp only [hut, if_false] at hu; exact h.who u hu
    · replace hu : ((s.goto t .idle).pc u).closing = true := hu
      rw [noone u] at hu; cases hu
    · replace hu : (s.goto t .idle).pc u = .closeRaw := hu
      have := noone u; rw [hu] at this; cases this
    · replace hu : (s.goto t .idle).pc u = .closeRaw ∨ (s.goto t .idle).pc u = .clearRaw
        ∨ (s.goto t .idle).pc u = .closeChan := hu
      have := noone u; rcases hu with hu | hu | hu <;> rw [hu] at this <;> cases this
    · cases (show false = true from hy)
    · cases (show false = true from hy)

/-- **C35**: a text client without `Timeout` that is closed by one goroutine only (at any time, again and again)
never panics in Close or in an operation because of Close. -/
theorem C35_no_panic (P : Params T) (hk : P.kind = .text) (hto : P.timeout = false)
    (hone : ∀ t u, P.closers t → P.closers u → t = u) (s : State T) (h : Reach P s) : s.crashed = false := by
  have : CloseInv P s := by
    induction h with
    | init => exact ⟨by simp [init], by simp [init, At.closing], by simp [init, At.closing], by simp [init], by simp [init],
        by simp [init], by simp [init], rfl⟩
    | step _ hs ih => exact closeInv_step hk hto hone ih hs
  exact this.fine

/-- **C35**: the meta and binary clients never do, with or without `Timeout`, whoever closes them. -/
theorem C35_no_panic_others (P : Params T) (hk : P.kind ≠ .text) (s : State T) (h : Reach P s) :
    s.crashed = false := by
  have : s.crashed = false ∧ s.raw = true ∧ ∀ t, s.pc t ≠ .clearRaw ∧ s.pc t ≠ .closeChan := by
    induction h with
    | init => exact ⟨rfl, rfl, fun t => by simp [init]⟩
    | @step s s' _ hs ih =>
      obtain ⟨i1, i2, i3⟩ := ih
      have mv : ∀ (t : T) (a : At), a ≠ .clearRaw → a ≠ .closeChan →
          ∀ u, (s.goto t a).pc u ≠ .clearRaw ∧ (s.goto t a).pc u ≠ .closeChan := by
        intro t a h1 h2 u
        rw [goto_pc]
        by_cases hu : u = t
        · simp [hu, h1, h2]
        · simp only [hu, if_false]; exact i3 u
      cases hs with
      | writeDeadlineNil t c hp _ hr => rw [i2] at hr; cases hr
      | readDeadlineNil t c hp hr => rw [i2] at hr; cases hr
      | closeRawNil t hp hr => rw [i2] at hr; cases hr
      | closeChanPanic t hp _ => exact absurd hp (i3 t).2
      | clearRaw t hp => exact absurd hp (i3 t).1
      | closeChan t hp _ _ => exact absurd hp (i3 t).2
      | arrive x y _ _ _ => exact ⟨i1, i2, i3⟩
      | hangUp => exact ⟨i1, i2, i3⟩
      | closeRaw t hp _ => simp only [hk, if_false]; exact ⟨i1, i2, mv t .idle (by simp) (by simp)⟩
      | _ => exact ⟨i1, i2, mv _ _ (by simp) (by simp)⟩
  exact this.1

/-- **C35** (a defect): with `Timeout` set, Close of a text client during an operation of another goroutine can
make that operation panic: it has found `raw` set, and dereferences it after Close has cleared it. -/
theorem C35_timeout_panics (P : Params T) (hk : P.kind = .text) (hto : P.timeout = true) (t u : T) (htu : u ≠ t)
    (ht : P.closers t) (c : Call Out) (hc : P.calls c) :
    ∃ s, Reach P s ∧ s.crashed = true ∧ s.pc u = .writeDeadline c := by
  have h0 : Reach P (init : State T) := .init
  have h1 := h0.step (.call init u c rfl hc)
  have h2 := h1.step (.lock _ u c (by simp [goto_pc]) rfl)
  have h3 := h2.step (.pass _ u c (by simp [goto_pc]) (fun _ => rfl))
  have h4 := h3.step (.callClose _ t (by simp [goto_pc, init, Ne.symm htu]) ht)
  have h5 := h4.step (.closeGo _ t (by simp [goto_pc]) (fun _ => rfl))
  have h6 := h5.step (.closeRaw _ t (by simp [goto_pc]) rfl)
  have h7 := h6.step (.clearRaw _ t (by simp [goto_pc, hk]))
  have h8 := h7.step (.writeDeadlineNil _ u c (by simp [goto_pc, htu]) hto rfl)
  exact ⟨_, h8, rfl, by simp [goto_pc, htu]⟩

/-- **C35** (a defect): two goroutines that close a text client at the same time can make one of them panic. -/
theorem C35_double_close_panics (P : Params T) (hk : P.kind = .text) (t u : T) (htu : u ≠ t)
    (ht : P.closers t) (hu : P.closers u) :
    ∃ s, Reach P s ∧ s.crashed = true ∧ s.pc u = .closeRaw := by
  have h0 : Reach P (init : State T) := .init
  have h1 := h0.step (.callClose init t rfl ht)
  have h2 := h1.step (.closeGo _ t (by simp [goto_pc]) (fun _ => rfl))
  have h3 := h2.step (.callClose _ u (by simp [goto_pc, init, htu]) hu)
  have h4 := h3.step (.closeGo _ u (by simp [goto_pc]) (fun _ => rfl))
  have h5 := h4.step (.closeRaw _ t (by simp [goto_pc, Ne.symm htu]) rfl)
  have h6 := h5.step (.clearRaw _ t (by simp [goto_pc, hk]))
  have h7 := h6.step (.closeRawNil _ u (by simp [goto_pc, htu]) rfl)
  exact ⟨_, h7, rfl, by simp [goto_pc, htu]⟩

end Sched
end Verif
