import Verif.Props.Reconn
/-!
C69: connections that stay open, and concrete runs.
-/

namespace Verif
namespace Reconn
open Spec
open Life (Kind errClosed errAlready)
open Sched (ClientCall)

variable {T : Type} [DecidableEq T]

/-! ## Nobody calls Close -/

/-- The new connection is in `s.raw`. -/
def At.placed : At → Option Nat
  | .setConn g => some g
  | _ => none

/-- The old connection has been closed. -/
def At.past : At → Bool
  | .dial | .setRaw _ | .setConn _ => true
  | _ => false

/-- Inside Close. -/
def At.closing : At → Bool
  | .user .close | .user .closeRaw | .user .clearRaw | .user .closeChan | .user .clearChan => true
  | _ => false

theorem At.inside_of_past {a : At} (h : a.past = true) : a.inside = true := by
  cases a <;> simp_all [At.past, At.inside]

theorem At.past_of_placed {a : At} {g : Nat} (h : a.placed = some g) : a.past = true := by
  cases a <;> simp_all [At.placed, At.past]

theorem At.past_of_next {a : At} {g : Nat} (h : a.next = some g) : a.past = true := by
  cases a <;> simp_all [At.next, At.past]

structure Tidy (s : State T) : Prop where
  closing : ∀ t, (s.pc t).closing = false
  placed : ∀ t g, (s.pc t).placed = some g → s.raw = some g
  inUse : (∀ t, (s.pc t).placed = none) → s.raw = some s.conn
  old : ∀ g, g < s.conn → (s.conns g).isOpen = false
  past : ∀ t, (s.pc t).past = true → (s.conns s.conn).isOpen = false

theorem Tidy.keep {s s' : State T} (h : Tidy s) {t : T} {a : At} (hp : s'.pc = (s.goto t a).pc)
    (h0 : a.closing = false) (h1 : a.placed = (s.pc t).placed) (h2 : a.past = true → (s.pc t).past = true)
    (h3 : s'.raw = s.raw) (h4 : s'.conn = s.conn) (h5 : ∀ g, (s'.conns g).isOpen = (s.conns g).isOpen) : Tidy s' := by
  have hpc : ∀ u, s'.pc u = if u = t then a else s.pc u := fun u => by rw [hp, goto_pc]
  have hpl : ∀ u, (s'.pc u).placed = (s.pc u).placed := by
    intro u
    rw [hpc]
    by_cases hu : u = t
    · simp only [hu, if_true]; exact h1
    · simp only [hu, if_false]
  refine ⟨fun u => ?_, fun u g hu => ?_, fun hn => ?_, fun g hg => ?_, fun u hu => ?_⟩
  · rw [hpc]
    by_cases hu : u = t
    · simp only [hu, if_true]; exact h0
    · simp only [hu, if_false]; exact h.closing u
  · rw [h3]; exact h.placed u g (hpl u ▸ hu)
  · rw [h3, h4]; exact h.inUse fun u => (hpl u).symm.trans (hn u)
  · rw [h5]; exact h.old g (h4 ▸ hg)
  · rw [h5, h4]
    rw [hpc] at hu
    by_cases hut : u = t
    · simp only [hut, if_true] at hu; exact h.past t (h2 hu)
    · simp only [hut, if_false] at hu; exact h.past u hu

theorem tidy_step {P : Params T} (hcl : ∀ t, ¬ P.closers t) {s s' : State T} (he : Excl s) (hg : Gen s) (h : Tidy s)
    (hs : Step P s s') : Tidy s' := by
  have bad : ∀ {t}, (s.pc t).closing = true → Tidy s' := by
    intro t hc; rw [h.closing t] at hc; cases hc
  have hset : ∀ (q : State T) (g : Nat) (c : Conn), c.isOpen = (q.conns g).isOpen → ∀ k, ((q.setConn g c).conns k).isOpen = (q.conns k).isOpen := by
    intro q g c hc k
    show (if k = g then c else q.conns k).isOpen = _
    split
    · rename_i hk; rw [hk]; exact hc
    · rfl
  cases hs with
  | call t c hp _ => exact h.keep (t := t) (a := .user (.called c)) rfl rfl (by rw [hp]; rfl) (by simp [At.past]) rfl rfl (fun _ => rfl)
  | lock t c hp hl => exact h.keep (t := t) (a := .user (.locked c)) rfl rfl (by rw [hp]; rfl) (by simp [At.past]) rfl rfl (fun _ => rfl)
  | refuse t c hp _ _ => exact h.keep (t := t) (a := .user .idle) rfl rfl (by rw [hp]; rfl) (by simp [At.past]) rfl rfl (fun _ => rfl)
  | pass t c hp _ => exact h.keep (t := t) (a := .user (.writeDeadline c)) rfl rfl (by rw [hp]; rfl) (by simp [At.past]) rfl rfl (fun _ => rfl)
  | writeDeadlineNil t c hp _ _ => exact ⟨h.closing, h.placed, h.inUse, h.old, h.past⟩
  | writeDeadline t c hp _ _ => exact h.keep (t := t) (a := .user (.readDeadline c)) rfl rfl (by rw [hp]; rfl) (by simp [At.past]) rfl rfl (fun _ => rfl)
  | readDeadlineNil t c hp _ => exact ⟨h.closing, h.placed, h.inUse, h.old, h.past⟩
  | readDeadline t c w hp _ _ => exact h.keep (t := t) (a := .user (.writing c w)) rfl rfl (by rw [hp]; rfl) (by simp [At.past]) rfl rfl (fun _ => rfl)
  | noDeadline t c w hp _ _ => exact h.keep (t := t) (a := .user (.writing c w)) rfl rfl (by rw [hp]; rfl) (by simp [At.past]) rfl rfl (fun _ => rfl)
  | unencodable t c e hp _ =>
    exact h.keep (t := t) (a := .user .idle) rfl rfl (by rcases hp with ⟨hp, _⟩ | ⟨hp, _⟩ <;> rw [hp] <;> rfl) (by simp [At.past])
      rfl rfl (fun _ => rfl)
  | unencodablePanic t c hp _ =>
    exact h.keep (t := t) (a := .user .idle) rfl rfl (by rcases hp with ⟨hp, _⟩ | ⟨hp, _⟩ <;> rw [hp] <;> rfl) (by simp [At.past])
      rfl rfl (fun _ => rfl)
  | write t c x y hp _ _ =>
    exact h.keep (t := t) (a := .user (.writing c y)) rfl rfl (by rw [hp]; rfl) (by simp [At.past]) rfl rfl (hset _ _ _ rfl)
  | writeFails t c x hp _ =>
    exact h.keep (t := t) (a := .user .idle) rfl rfl (by rw [hp]; rfl) (by simp [At.past]) rfl rfl (hset _ _ _ rfl)
  | written t c hp _ => exact h.keep (t := t) (a := .user (.reading c)) rfl rfl (by rw [hp]; rfl) (by simp [At.past]) rfl rfl (fun _ => rfl)
  | arrive g x y _ _ _ _ =>
    have := hset s g { s.conns g with got := (s.conns g).got ++ x, inbox := (s.conns g).inbox ++ x } rfl
    exact ⟨h.closing, h.placed, h.inUse, fun k hk => (this k).trans (h.old k hk), fun t ht => (this _).trans (h.past t ht)⟩
  | hangUp g _ =>
    have := hset s g { s.conns g with ended := true } rfl
    exact ⟨h.closing, h.placed, h.inUse, fun k hk => (this k).trans (h.old k hk), fun t ht => (this _).trans (h.past t ht)⟩
  | read t c hp _ => exact h.keep (t := t) (a := .user .idle) rfl rfl (by rw [hp]; rfl) (by simp [At.past]) rfl rfl (hset _ _ _ rfl)
  | readFails t c hp _ _ => exact h.keep (t := t) (a := .user .idle) rfl rfl (by rw [hp]; rfl) (by simp [At.past]) rfl rfl (hset _ _ _ rfl)
  | readTimeout t c hp _ _ _ => exact h.keep (t := t) (a := .user .idle) rfl rfl (by rw [hp]; rfl) (by simp [At.past]) rfl rfl (hset _ _ _ rfl)
  | callClose t hp hx => exact absurd hx (hcl t)
  | closeAgain t hp _ _ => exact bad (t := t) (by rw [hp]; rfl)
  | closeGo t hp _ => exact bad (t := t) (by rw [hp]; rfl)
  | closeRawNil t hp _ => exact bad (t := t) (by rw [hp]; rfl)
  | closeRaw t g hp _ => exact bad (t := t) (by rw [hp]; rfl)
  | clearRaw t hp => exact bad (t := t) (by rw [hp]; rfl)
  | closeChanPanic t hp _ => exact bad (t := t) (by rw [hp]; rfl)
  | closeChan t hp _ _ => exact bad (t := t) (by rw [hp]; rfl)
  | clearChan t hp => exact bad (t := t) (by rw [hp]; rfl)
  | callReconnect t hp _ => exact h.keep (t := t) (a := .called) rfl rfl (by rw [hp]; rfl) (by simp [At.past]) rfl rfl (fun _ => rfl)
  | lockReconnect t hp hl => exact h.keep (t := t) (a := .locked) rfl rfl (by rw [hp]; rfl) (by simp [At.past]) rfl rfl (fun _ => rfl)
  | shutFails t g hp _ _ => exact h.keep (t := t) (a := .user .idle) rfl rfl (by rw [hp]; rfl) (by simp [At.past]) rfl rfl (fun _ => rfl)
  | dialFails t hp => exact h.keep (t := t) (a := .user .idle) rfl rfl (by rw [hp]; rfl) (by simp [At.past]) rfl rfl (fun _ => rfl)
  | dial t hp =>
    exact h.keep (t := t) (a := .setRaw s.dialled) rfl rfl (by rw [hp]; rfl) (by rw [hp]; simp [At.past]) rfl rfl (fun _ => rfl)
  | noRaw t hp hr =>
    exfalso
    have hq : ∀ u, (s.pc u).placed = none := by
      intro u
      cases hu : (s.pc u).placed with
      | none => rfl
      | some g =>
        have := he.one (t := t) (by rw [hp]; rfl) (At.inside_of_past (At.past_of_placed hu))
        rw [this, hp] at hu; cases hu
    rw [h.inUse hq] at hr; cases hr
  | shut t g hp hr ho =>
    have hq : ∀ u, (s.pc u).placed = none := by
      intro u
      cases hu : (s.pc u).placed with
      | none => rfl
      | some g =>
        have := he.one (t := t) (by rw [hp]; rfl) (At.inside_of_past (At.past_of_placed hu))
        rw [this, hp] at hu; cases hu
    have hgc : g = s.conn := by
      have := h.inUse hq
      rw [hr] at this
      exact Option.some.inj this
    subst hgc
    have hpc : ∀ u, ((s.goto t .dial).pc u) = if u = t then .dial else s.pc u := fun u => rfl
    refine ⟨fun u => ?_, fun u g hu => ?_, fun _ => h.inUse hq, fun g hg => ?_, fun _ _ => ?_⟩
    · show ((s.goto t .dial).pc u).closing = false
      rw [hpc]; split
      · rfl
      · exact h.closing u
    · replace hu : ((s.goto t .dial).pc u).placed = some g := hu
      rw [hpc] at hu
      split at hu
      · cases hu
      · rw [hq u] at hu; cases hu
    · show (if g = s.conn then { s.conns s.conn with isOpen := false } else s.conns g).isOpen = false
      split
      · rfl
      · exact h.old g hg
    · show (if s.conn = s.conn then { s.conns s.conn with isOpen := false } else s.conns s.conn).isOpen = false
      rw [if_pos rfl]
  | setRaw t g hp =>
    have hpc : ∀ u, ((s.goto t (.setConn g)).pc u) = if u = t then .setConn g else s.pc u := fun u => rfl
    have hpast := h.past t (by rw [hp]; rfl)
    have hq : ∀ u, u ≠ t → (s.pc u).placed = none := by
      intro u hut
      cases hu : (s.pc u).placed with
      | none => rfl
      | some g => exact absurd (he.one (t := t) (by rw [hp]; rfl) (At.inside_of_past (At.past_of_placed hu))) hut
    refine ⟨fun u => ?_, fun u k hu => ?_, fun hn => ?_, h.old, fun _ _ => hpast⟩
    · show ((s.goto t (.setConn g)).pc u).closing = false
      rw [hpc]; split
      · rfl
      · exact h.closing u
    · replace hu : ((s.goto t (.setConn g)).pc u).placed = some k := hu
      show some g = some k
      rw [hpc] at hu
      by_cases hut : u = t
      · simp only [hut, if_true, At.placed] at hu; exact hu
      · simp only [hut, if_false] at hu; rw [hq u hut] at hu; cases hu
    · have := hn t
      rw [show ({ s.goto t (.setConn g) with raw := some g } : State T).pc t = (s.goto t (.setConn g)).pc t from rfl, hpc, if_pos rfl] at this
      cases this
  | setConn t g hp =>
    have hpc : ∀ u, ((s.goto t (.user .idle)).pc u) = if u = t then .user .idle else s.pc u := fun u => rfl
    have hpast := h.past t (by rw [hp]; rfl)
    obtain ⟨hg1, _⟩ := hg.next t g (by rw [hp]; rfl)
    have hq : ∀ u, u ≠ t → (s.pc u).past = false := by
      intro u hut
      cases hu : (s.pc u).past with
      | false => rfl
      | true => exact absurd (he.one (t := t) (by rw [hp]; rfl) (At.inside_of_past hu)) hut
    have hnp : ∀ u, ((s.goto t (.user .idle)).pc u).past = false := by
      intro u
      rw [hpc]
      by_cases hut : u = t
      · simp only [hut, if_true]; rfl
      · simp only [hut, if_false]; exact hq u hut
    refine ⟨fun u => ?_, fun u k hu => ?_, fun _ => ?_, fun k hk => ?_, fun u hu => ?_⟩
    · show ((s.goto t (.user .idle)).pc u).closing = false
      rw [hpc]; split
      · rfl
      · exact h.closing u
    · have := At.past_of_placed hu
      rw [show ({ s.ret t (.reconnect true) with conn := g } : State T).pc u = (s.goto t (.user .idle)).pc u from rfl, hnp u] at this
      cases this
    · exact h.placed t g (by rw [hp]; rfl)
    · replace hk : k < g := hk
      show (s.conns k).isOpen = false
      rw [hg1] at hk
      rcases Nat.lt_succ_iff_lt_or_eq.1 hk with hk | hk
      · exact h.old k hk
      · rw [hk]; exact hpast
    · rw [show ({ s.ret t (.reconnect true) with conn := g } : State T).pc u = (s.goto t (.user .idle)).pc u from rfl, hnp u] at hu
      cases hu

theorem tidy {P : Params T} (hcl : ∀ t, ¬ P.closers t) {s : State T} (h : Reach P s) : Tidy s := by
  induction h with
  | init => exact ⟨fun _ => rfl, fun _ _ hh => (by cases hh), fun _ => rfl, fun g hg => absurd hg (Nat.not_lt_zero g),
      fun _ hh => (by cases hh)⟩
  | step hr hs ih => exact tidy_step hcl (excl hr) (gen hr) ih hs

/-- **C69**: when nobody calls Close, at most one of the connections the client has dialled is open, whatever
goroutines Reconnect and use the client: Reconnect leaves no connection behind. -/
theorem C69_one_open (P : Params T) (hcl : ∀ t, ¬ P.closers t) (s : State T) (h : Reach P s) (g k : Nat)
    (hg : g < s.dialled) (hk : k < s.dialled) (ho : (s.conns g).isOpen = true) (ho' : (s.conns k).isOpen = true) : g = k := by
  have ht := tidy hcl h
  have hgen := gen h
  have key : ∀ g, g < s.dialled → (s.conns g).isOpen = true → (g = s.conn ∧ ∀ t, (s.pc t).past = false) ∨ g = s.conn + 1 := by
    intro g hg ho
    by_cases hn : ∃ t, (s.pc t).past = true
    · obtain ⟨t, hp⟩ := hn
      have h1 := ht.past t hp
      right
      have h2 : g ≠ s.conn := by intro he; rw [he, h1] at ho; cases ho
      have h3 : ¬ g < s.conn := by intro hl; rw [ht.old g hl] at ho; cases ho
      have h4 : s.dialled ≤ s.conn + 2 := by
        by_cases hx : ∃ u k, (s.pc u).next = some k
        · obtain ⟨u, k, hu⟩ := hx
          rw [(hgen.next u k hu).2]; omega
        · have := hgen.none fun u => by
            cases hu : (s.pc u).next with
            | none => rfl
            | some k => exact absurd ⟨u, k, hu⟩ hx
          omega
      omega
    · left
      have hnp : ∀ t, (s.pc t).past = false := by
        intro t
        cases hh : (s.pc t).past with
        | false => rfl
        | true => exact absurd ⟨t, hh⟩ hn
      refine ⟨?_, hnp⟩
      have := hgen.none fun u => by
        cases hu : (s.pc u).next with
        | none => rfl
        | some k => exact absurd ⟨u, At.past_of_next hu⟩ hn
      have h3 : ¬ g < s.conn := by intro hl; rw [ht.old g hl] at ho; cases ho
      omega
  have noNext : ∀ g, g < s.dialled → g = s.conn + 1 → ∃ t, (s.pc t).past = true := by
    intro g hg he
    apply Classical.byContradiction
    intro hn
    have := hgen.none fun u => by
      cases hu : (s.pc u).next with
      | none => rfl
      | some k => exact absurd ⟨u, At.past_of_next hu⟩ hn
    omega
  rcases key g hg ho with ⟨e1, q1⟩ | e1 <;> rcases key k hk ho' with ⟨e2, q2⟩ | e2
  · omega
  · obtain ⟨t, hp⟩ := noNext k hk e2
    rw [q1 t] at hp; cases hp
  · obtain ⟨t, hp⟩ := noNext g hg e1
    rw [q2 t] at hp; cases hp
  · omega

/-! ## Close during Reconnect -/

/-- Connection `k` is open and the client has lost it. -/
structure Lost (k : Nat) (s : State T) : Prop where
  isOpen : (s.conns k).isOpen = true
  raw : s.raw ≠ some k
  pc : ∀ t, s.pc t ≠ .setRaw k
  dialled : k < s.dialled

theorem Lost.keep {k : Nat} {s s' : State T} (h : Lost k s) (ho : (s'.conns k).isOpen = (s.conns k).isOpen)
    (hr : s'.raw = s.raw ∨ s'.raw ≠ some k) {t : T} {a : At} (hp : s'.pc = s.pc ∨ s'.pc = (s.goto t a).pc) (ha : a ≠ .setRaw k)
    (hd : s.dialled ≤ s'.dialled) : Lost k s' := by
  refine ⟨ho.trans h.isOpen, ?_, fun u => ?_, Nat.lt_of_lt_of_le h.dialled hd⟩
  · rcases hr with hr | hr
    · rw [hr]; exact h.raw
    · exact hr
  · rcases hp with hp | hp
    · rw [hp]; exact h.pc u
    · rw [hp, goto_pc]
      split
      · exact ha
      · exact h.pc u

theorem lost_step {k : Nat} {P : Params T} {s s' : State T} (h : Lost k s) (hs : Step P s s') : Lost k s' := by
  have hset : ∀ (q : State T) (g : Nat) (c : Conn), (g = k → c.isOpen = (q.conns k).isOpen) →
      ((q.setConn g c).conns k).isOpen = (q.conns k).isOpen := by
    intro q g c hc
    show (if k = g then c else q.conns k).isOpen = _
    split
    · rename_i hk; exact hc hk.symm
    · rfl
  cases hs with
  | call t c hp _ => exact h.keep rfl (.inl rfl) (t := t) (.inr rfl) (by intro hh; cases hh) (Nat.le_refl _)
  | lock t c hp hl => exact h.keep rfl (.inl rfl) (t := t) (.inr rfl) (by intro hh; cases hh) (Nat.le_refl _)
  | refuse t c hp _ _ => exact h.keep rfl (.inl rfl) (t := t) (a := .user .idle) (.inr rfl) (by intro hh; cases hh) (Nat.le_refl _)
  | pass t c hp _ => exact h.keep rfl (.inl rfl) (t := t) (.inr rfl) (by intro hh; cases hh) (Nat.le_refl _)
  | writeDeadlineNil t c hp _ _ => exact ⟨h.isOpen, h.raw, h.pc, h.dialled⟩
  | writeDeadline t c hp _ _ => exact h.keep rfl (.inl rfl) (t := t) (.inr rfl) (by intro hh; cases hh) (Nat.le_refl _)
  | readDeadlineNil t c hp _ => exact ⟨h.isOpen, h.raw, h.pc, h.dialled⟩
  | readDeadline t c w hp _ _ => exact h.keep rfl (.inl rfl) (t := t) (.inr rfl) (by intro hh; cases hh) (Nat.le_refl _)
  | noDeadline t c w hp _ _ => exact h.keep rfl (.inl rfl) (t := t) (.inr rfl) (by intro hh; cases hh) (Nat.le_refl _)
  | unencodable t c e hp _ => exact h.keep rfl (.inl rfl) (t := t) (a := .user .idle) (.inr rfl) (by intro hh; cases hh) (Nat.le_refl _)
  | unencodablePanic t c hp _ => exact h.keep rfl (.inl rfl) (t := t) (a := .user .idle) (.inr rfl) (by intro hh; cases hh) (Nat.le_refl _)
  | write t c x y hp _ _ =>
    exact h.keep (hset _ _ _ (by intro hh; rw [← hh]; rfl)) (.inl rfl) (t := t) (a := .user (.writing c y)) (.inr rfl) (by intro hh; cases hh) (Nat.le_refl _)
  | writeFails t c x hp _ =>
    exact h.keep (hset _ _ _ (by intro hh; rw [← hh]; rfl)) (.inl rfl) (t := t) (a := .user .idle) (.inr rfl) (by intro hh; cases hh) (Nat.le_refl _)
  | written t c hp _ => exact h.keep rfl (.inl rfl) (t := t) (.inr rfl) (by intro hh; cases hh) (Nat.le_refl _)
  | arrive g x y _ _ _ _ =>
    exact ⟨(hset s g { s.conns g with got := (s.conns g).got ++ x, inbox := (s.conns g).inbox ++ x }
      (by intro hh; rw [← hh])).trans h.isOpen, h.raw, h.pc, h.dialled⟩
  | hangUp g _ =>
    exact ⟨(hset s g { s.conns g with ended := true } (by intro hh; rw [← hh])).trans h.isOpen, h.raw, h.pc, h.dialled⟩
  | read t c hp _ =>
    exact h.keep (hset _ _ _ (by intro hh; rw [← hh]; rfl)) (.inl rfl) (t := t) (a := .user .idle) (.inr rfl) (by intro hh; cases hh) (Nat.le_refl _)
  | readFails t c hp _ _ =>
    exact h.keep (hset _ _ _ (by intro hh; rw [← hh]; rfl)) (.inl rfl) (t := t) (a := .user .idle) (.inr rfl) (by intro hh; cases hh) (Nat.le_refl _)
  | readTimeout t c hp _ _ _ =>
    exact h.keep (hset _ _ _ (by intro hh; rw [← hh]; rfl)) (.inl rfl) (t := t) (a := .user .idle) (.inr rfl) (by intro hh; cases hh) (Nat.le_refl _)
  | callClose t hp hx => exact h.keep rfl (.inl rfl) (t := t) (.inr rfl) (by intro hh; cases hh) (Nat.le_refl _)
  | closeAgain t hp _ _ => exact h.keep rfl (.inl rfl) (t := t) (.inr rfl) (by intro hh; cases hh) (Nat.le_refl _)
  | closeGo t hp _ => exact h.keep rfl (.inl rfl) (t := t) (.inr rfl) (by intro hh; cases hh) (Nat.le_refl _)
  | closeRawNil t hp _ => exact ⟨h.isOpen, h.raw, h.pc, h.dialled⟩
  | closeRaw t g hp hr =>
    exact h.keep (hset _ _ _ (by intro hh; rw [hh] at hr; exact absurd hr h.raw)) (.inl rfl) (t := t)
      (a := .user (if P.kind = .text then .clearRaw else .idle)) (.inr rfl) (by intro hh; cases hh) (Nat.le_refl _)
  | clearRaw t hp => exact h.keep rfl (.inr (by intro hh; cases hh)) (t := t) (a := .user .closeChan) (.inr rfl) (by intro hh; cases hh) (Nat.le_refl _)
  | closeChanPanic t hp _ => exact ⟨h.isOpen, h.raw, h.pc, h.dialled⟩
  | closeChan t hp _ _ => exact h.keep rfl (.inl rfl) (t := t) (a := .user .clearChan) (.inr rfl) (by intro hh; cases hh) (Nat.le_refl _)
  | clearChan t hp => exact h.keep rfl (.inl rfl) (t := t) (a := .user .idle) (.inr rfl) (by intro hh; cases hh) (Nat.le_refl _)
  | callReconnect t hp _ => exact h.keep rfl (.inl rfl) (t := t) (.inr rfl) (by intro hh; cases hh) (Nat.le_refl _)
  | lockReconnect t hp hl => exact h.keep rfl (.inl rfl) (t := t) (a := .locked) (.inr rfl) (by intro hh; cases hh) (Nat.le_refl _)
  | noRaw t hp hr => exact h.keep rfl (.inl rfl) (t := t) (.inr rfl) (by intro hh; cases hh) (Nat.le_refl _)
  | shut t g hp hr ho =>
    exact h.keep (hset _ _ _ (by intro hh; rw [hh] at hr; exact absurd hr h.raw)) (.inl rfl) (t := t)
      (a := .dial) (.inr rfl) (by intro hh; cases hh) (Nat.le_refl _)
  | shutFails t g hp _ _ => exact h.keep rfl (.inl rfl) (t := t) (a := .user .idle) (.inr rfl) (by intro hh; cases hh) (Nat.le_refl _)
  | dialFails t hp => exact h.keep rfl (.inl rfl) (t := t) (a := .user .idle) (.inr rfl) (by intro hh; cases hh) (Nat.le_refl _)
  | dial t hp =>
    exact h.keep rfl (.inl rfl) (t := t) (a := .setRaw s.dialled) (.inr rfl)
      (by intro hh; injection hh with hh; exact Nat.ne_of_gt h.dialled hh) (Nat.le_succ _)
  | setRaw t g hp =>
    exact h.keep rfl (.inr (by intro hh; injection hh with hh; exact h.pc t (hh ▸ hp))) (t := t) (a := .setConn g) (.inr rfl)
      (by intro hh; cases hh) (Nat.le_refl _)
  | setConn t g hp => exact h.keep rfl (.inl rfl) (t := t) (a := .user .idle) (.inr rfl) (by intro hh; cases hh) (Nat.le_refl _)

/-- **C69**: Close of the text client during Reconnect: there is a run in which goroutine `true` calls Close and
goroutine `false` calls Reconnect, both return, Reconnect without an error, the client is closed, and the connection
that Reconnect dialled is open and will never be closed by this client, whatever is called from then on. -/
theorem C69_leak (P : Params Bool) (hk : P.kind = .text) (hc : P.closers true) (hr : P.reconnectors false) :
    ∃ s, Reach P s ∧ (∀ t, s.pc t = .user .idle) ∧ s.log = [.reconnect true] ∧ s.raw = none ∧ s.closeCh = false ∧
      s.crashed = false ∧ s.dialled = 2 ∧ ∀ s', Later P s s' → (s'.conns 1).isOpen = true := by
  have r0 : Reach P init := .init
  have r1 := r0.step (.callReconnect _ false rfl hr)
  have r2 := r1.step (.lockReconnect _ false rfl rfl)
  have r3 := r2.step (.callClose _ true rfl hc)
  have r4 := r3.step (.closeGo _ true rfl (fun _ => rfl))
  have r5 := r4.step (.shut _ false 0 rfl rfl rfl)
  have r6 := r5.step (.closeRaw _ true 0 rfl rfl)
  rw [if_pos hk] at r6
  have r7 := r6.step (.dial _ false rfl)
  have r8 := r7.step (.setRaw _ false 1 rfl)
  have r9 := r8.step (.clearRaw _ true rfl)
  have r10 := r9.step (.setConn _ false 1 rfl)
  have r11 := r10.step (.closeChan _ true rfl rfl rfl)
  have r12 := r11.step (.clearChan _ true rfl)
  refine ⟨_, r12, ?_, rfl, rfl, rfl, rfl, rfl, ?_⟩
  · intro t; cases t <;> rfl
  · intro s' hl
    refine Lost.isOpen (k := 1) ?_
    induction hl with
    | refl => exact ⟨rfl, (by intro hh; cases hh), (by intro t; cases t <;> intro hh <;> cases hh), Nat.lt_succ_self 1⟩
    | step _ hs ih => exact lost_step ih hs

/-! ## A concrete run -/

/-- A call fails because the server has ended the connection, the other goroutine Reconnects, and the call, made
again, returns what the server answers on the new connection. -/
theorem recovers_run (P : Params Bool) (ht : P.timeout = false) (hr : P.reconnectors false) (c : Call Out) (w : Bytes)
    (hc : P.calls c) (hw : c.wire = .ok w) (hd : (c.rd (P.resp 1 w)).1 ≠ .err .io) :
    ∃ s, Reach P s ∧ (∀ t, s.pc t = .user .idle) ∧
      s.log = [.op c (.err .io), .reconnect true, .op c (c.rd (P.resp 1 w)).1] ∧
      s.conn = 1 ∧ s.cur.isOpen = true ∧ s.cur.ended = false := by
  have r0 : Reach P init := .init
  have r1 := r0.step (.call _ true c rfl hc)
  have r2 := r1.step (.lock _ true c rfl rfl)
  have r3 := r2.step (.pass _ true c rfl (fun _ hh => (by cases hh)))
  have r4 := r3.step (.noDeadline _ true c w rfl ht hw)
  have r5 := r4.step (.hangUp _ 0 (Nat.lt_succ_self 0))
  have r6 := r5.step (.writeFails _ true c w rfl (.inr (.inl rfl)))
  have r7 := r6.step (.callReconnect _ false rfl hr)
  have r8 := r7.step (.lockReconnect _ false rfl rfl)
  have r9 := r8.step (.shut _ false 0 rfl rfl rfl)
  have r10 := r9.step (.dial _ false rfl)
  have r11 := r10.step (.setRaw _ false 1 rfl)
  have r12 := r11.step (.setConn _ false 1 rfl)
  have r13 := r12.step (.call _ true c rfl hc)
  have r14 := r13.step (.lock _ true c rfl rfl)
  have r15 := r14.step (.pass _ true c rfl (fun _ hh => (by cases hh)))
  have r16 := r15.step (.noDeadline _ true c (w ++ []) rfl ht (by rw [List.append_nil]; exact hw))
  have r17 := r16.step (.write _ true c w [] rfl rfl rfl)
  have r18 := r17.step (.written _ true c rfl rfl)
  have r19 := r18.step (.arrive _ 1 (P.resp 1 w) [] (Nat.lt_succ_self 1) rfl rfl (by simp; rfl))
  have r20 := r19.step (.read _ true c rfl hd)
  refine ⟨_, r20, ?_, rfl, rfl, rfl, rfl⟩
  intro t; cases t <;> rfl

/-- Two goroutines, the text client, a memcached server that keeps nothing between connections. -/
def again : Params Bool where
  kind := .text
  timeout := false
  late := false
  resp := fun n => Mc.output (Props.emptyStore n)
  calls := fun c => ∃ op, GoodOp op ∧ c = Mc.textCall b!"a" op
  closers := fun _ => False
  reconnectors := fun t => t = false

/-- **C69**, concretely: Set fails on a connection that the server has ended; after Reconnect by another goroutine the
same Set succeeds; the epochs of that history are as `C69_linear` and `C69_memcached_text` require. -/
theorem C69_concrete :
    ∃ s, Reach again s ∧ (∀ t, s.pc t = .user .idle) ∧ successes s.log = 1 ∧
      epoch 0 s.log = [(Mc.textCall b!"a" (.set { key := b!"k", value := b!"hello" }), .err .io)] ∧
      epoch 1 s.log = [(Mc.textCall b!"a" (.set { key := b!"k", value := b!"hello" }), .ok .done)] ∧
      (s.conns 1).isOpen = true ∧ (s.conns 1).ended = false := by
  obtain ⟨s, h1, h2, h3, h4, h5, h6⟩ := recovers_run again rfl rfl (Mc.textCall b!"a" (.set { key := b!"k", value := b!"hello" })) _
    ⟨.set { key := b!"k", value := b!"hello" }, (⟨by decide, by decide, by decide, by decide⟩ : GoodItem _), rfl⟩ rfl (by decide +kernel)
  refine ⟨s, h1, h2, ?_, ?_, ?_, ?_, ?_⟩
  · rw [h3]; rfl
  · rw [h3]; rfl
  · rw [h3]
    have : ((Mc.textCall b!"a" (.set { key := b!"k", value := b!"hello" })).rd (again.resp 1
        (Text.setWire { key := b!"k", value := b!"hello" }))).1 = .ok .done := by decide +kernel
    rw [this]; rfl
  · have := h5; rw [State.cur, h4] at this; exact this
  · have := h6; rw [State.cur, h4] at this; exact this

end Reconn
end Verif
