import Verif.Props.JointRest
/-!
C81, continued: the whole comes to rest.
-/

namespace Verif
namespace Joint
open Srv Spec Props
open Accept (Conn Concurrent Run Atomic atomically)

variable {T : Type} [DecidableEq T] {σ : Type}
variable {P : Nat → Sched.Params T} {p : Nat → Proto} {A : Nat → Ask → Prop} {h : Handler σ} {I : σ → Prop} {s0 : σ}

/-! ### What is still to happen -/

/-- A handler that owes each connection so much, in states among `J`: everything it does by itself makes that less. -/
structure Winds (K : Concurrent σ) (J : σ → Prop) (owes : σ → Nat → Nat) : Prop where
  call : ∀ s c req, J s → J (K.call s c req) ∧ owes (K.call s c req) c ≤ 3 ∧ ∀ d, d ≠ c → owes (K.call s c req) d = owes s d
  step : ∀ s s', J s → K.step s s' → J s' ∧ ∃ c, owes s' c < owes s c ∧ ∀ d, d ≠ c → owes s' d = owes s d
  ret : ∀ s c x s', J s → K.ret s c x s' → J s' ∧ owes s' c < owes s c ∧ ∀ d, d ≠ c → owes s' d = owes s d

variable {K : Concurrent σ} {J : σ → Prop} {owes : σ → Nat → Nat}

/-- On connection `c` of the server, if its client has sent `u` bytes. -/
def owed (owes : σ → Nat → Nat) (w : Accept.World σ) (c u : Nat) : Nat :=
  (match w.conns c with
    | none => 0
    | some k => 5 * (u - k.sent.length) + 4 * k.avail.length + (if k.eof then 0 else 1) + (if k.fin = none then 1 else 0))
  + owes w.state c

/-- What has not arrived at client `c`, and whether it can still fail. -/
def arriving (q : State T σ) (c : Nat) : Nat :=
  3 * ((q.out c).length - (q.users c).got.length) + ((if (q.users c).ended then 0 else 1) + (if (q.users c).crashed then 0 else 1))

/-- All of it, in order of weight. -/
def measure (owes : σ → Nat → Nat) (cs : List Nat) (ts : Nat → List T) (q : State T σ) : Nat × Nat × Nat :=
  ((cs.map fun c => Sched.todo (ts c) (q.users c)).sum, (cs.map fun c => owed owes q.server c (q.users c).sent.length).sum,
    (cs.map (arriving q)).sum)

/-- Only the clients `cs` have done anything, and of their goroutines only `ts` are in a call. -/
structure Within (J : σ → Prop) (owes : σ → Nat → Nat) (cs : List Nat) (ts : Nat → List T) (q : State T σ) : Prop where
  users : ∀ c, c ∉ cs → q.users c = Sched.init
  conns : ∀ c, c ∉ cs → q.server.conns c = none
  inside : J q.server.state
  waiting : ∀ c, q.server.conns c = none → owes q.server.state c = 0
  among : ∀ c, Sched.Among (ts c) (q.users c)

theorem sent_todo {R : Sched.Params T} {ts : List T} {s s' : Sched.State T} (ham : Sched.Among ts s) (hw : Works R s s') :
    Sched.todo ts s' < Sched.todo ts s ∨ (Sched.todo ts s' = Sched.todo ts s ∧ s'.sent = s.sent ∧
      3 * ((R.resp s.sent).length - s'.got.length) + ((if s'.ended then 0 else 1) + (if s'.crashed then 0 else 1))
      < 3 * ((R.resp s.sent).length - s.got.length) + ((if s.ended then 0 else 1) + (if s.crashed then 0 else 1))) := by
  have hm := Sched.works_measure ham hw
  have hsent : s'.sent = s.sent ∨ Sched.todo ts s' < Sched.todo ts s := by
    have hs := hw.1
    cases hs with
    | write t c x y hp ho hwerr =>
      cases x with
      | nil => exact .inl (List.append_nil _)
      | cons b x =>
        refine .inr (Sched.todo_goto (t := t) (a := .writing c y) rfl (ham t (by rw [hp]; simp)) ?_)
        rw [hp]
        simp only [Sched.At.cost, List.length_append, List.length_cons]
        omega
    | _ => exact .inl rfl
  rcases hsent with hsent | hlt
  · have e1 : Sched.measure R ts s' = (Sched.todo ts s', (R.resp s.sent).length - s'.got.length,
        (if s'.ended then 0 else 1) + (if s'.crashed then 0 else 1)) := by
      unfold Sched.measure; rw [hsent]
    have e2 : Sched.measure R ts s = (Sched.todo ts s, (R.resp s.sent).length - s.got.length,
        (if s.ended then 0 else 1) + (if s.crashed then 0 else 1)) := rfl
    rw [e1, e2] at hm
    have f1 : (if s'.ended then 0 else 1) + (if s'.crashed then 0 else 1) ≤ 2 := by
      cases s'.ended <;> cases s'.crashed <;> decide
    revert hm f1
    generalize ((if s'.ended then 0 else 1) + (if s'.crashed then 0 else 1) : Nat) = f'
    generalize ((if s.ended then 0 else 1) + (if s.crashed then 0 else 1) : Nat) = f
    generalize (R.resp s.sent).length - s'.got.length = g'
    generalize (R.resp s.sent).length - s.got.length = g
    generalize Sched.todo ts s' = a'
    generalize Sched.todo ts s = a
    intro hm f1
    unfold Sched.Less at hm
    rcases Prod.lex_def.1 hm with h1 | ⟨h1, h2⟩
    · exact .inl h1
    · refine .inr ⟨h1, hsent, ?_⟩
      rcases Prod.lex_def.1 h2 with h3 | ⟨h3, h4⟩
      · have h3 : g' < g := h3
        omega
      · have h3 : g' = g := h3
        have h4 : f' < f := h4
        omega
  · exact .inl hlt

theorem sum_change {f g : Nat → Nat} {c : Nat} {cs : List Nat} (hc : c ∈ cs) (ho : ∀ d, d ≠ c → g d = f d) (hlt : g c < f c) :
    (cs.map g).sum < (cs.map f).sum := by
  refine Sched.sum_lt f g c hlt cs (fun d _ => ?_) hc
  by_cases hd : d = c
  · subst hd; exact Nat.le_of_lt hlt
  · rw [ho d hd]; exact Nat.le_refl _

theorem owed_conn {w w' : Accept.World σ} {c : Nat} {k k' : Conn} (hk : w.conns c = some k)
    (hc : w'.conns = (w.put c k').conns) (hd : ∀ d, d ≠ c → owes w'.state d = owes w.state d)
    {u : Nat → Nat}
    (hlt : 5 * (u c - k'.sent.length) + 4 * k'.avail.length + (if k'.eof then 0 else 1) + (if k'.fin = none then 1 else 0)
        + owes w'.state c
      < 5 * (u c - k.sent.length) + 4 * k.avail.length + (if k.eof then 0 else 1) + (if k.fin = none then 1 else 0)
        + owes w.state c) :
    (∀ d, d ≠ c → owed owes w' d (u d) = owed owes w d (u d)) ∧ owed owes w' c (u c) < owed owes w c (u c) := by
  refine ⟨fun d hdc => ?_, ?_⟩
  · unfold owed
    rw [hd d hdc, hc]
    have : (w.put c k').conns d = w.conns d := if_neg hdc
    rw [this]
  · unfold owed
    rw [hc, put_conns_self, hk]
    exact hlt

theorem server_owed (hK : Winds K J owes) {w w' : Accept.World σ} {a : Accept.Who} (hs : Accept.Step K w a w') (hJ : J w.state) {u : Nat → Nat}
    (hu : ∀ c k, w'.conns c = some k → k.sent.length ≤ u c) (hne : w' ≠ w) (hacc : ∀ c, w.conns c = none → w'.conns c = none)
    (hlis : w'.listening = w.listening) :
    J w'.state ∧ ∃ c, ((∃ k, w.conns c = some k) ∨ 0 < owes w.state c) ∧ (∀ d, d ≠ c → owed owes w' d (u d) = owed owes w d (u d))
      ∧ owed owes w' c (u c) < owed owes w c (u c) := by
  have ret : ∀ (c : Nat) (k k' : Conn) (x : Res (List Response)) (s : σ) (w2 : Accept.World σ),
      w.conns c = some k → K.ret w.state c x s → w2.conns = (w.put c k').conns → w2.state = s →
      k'.sent = k.sent → k'.avail = k.avail → k'.eof = k.eof → k.fin = none →
      J w2.state ∧ ∃ c, ((∃ k, w.conns c = some k) ∨ 0 < owes w.state c) ∧ (∀ d, d ≠ c → owed owes w2 d (u d) = owed owes w d (u d))
        ∧ owed owes w2 c (u c) < owed owes w c (u c) := by
    intro c k k' x s w2 hk hret hc hst h1 h2 h3 h4
    obtain ⟨g1, g2, g3⟩ := hK.ret _ _ _ _ hJ hret
    refine ⟨by rw [hst]; exact g1, c, .inl ⟨k, hk⟩, owed_conn hk hc (fun d hd => ?_) ?_⟩
    · rw [hst]
      exact g3 d hd
    · rw [hst, h1, h2, h3, h4]
      simp only [if_true]
      have hf : (if k'.fin = none then 1 else 0 : Nat) ≤ 1 := by split <;> omega
      omega
  cases hs with
  | accept c up hl new =>
    have := hacc c new
    rw [put_conns_self] at this
    cases this
  | acceptFails up hl =>
    have hlis : false = w.listening := hlis
    rw [hl] at hlis
    cases hlis
  | arrive c k bs up hk he =>
    have hbs : bs ≠ [] := by
      rintro rfl
      apply hne
      have : { k with sent := k.sent ++ [], avail := k.avail ++ [] } = k := by simp
      rw [this]
      unfold Accept.World.put
      have : (fun d => if d = c then some k else w.conns d) = w.conns := by
        funext d
        by_cases hd : d = c
        · subst hd; rw [if_pos rfl, hk]
        · rw [if_neg hd]
      rw [this]
    have hlen := List.length_pos_iff.2 hbs
    have := hu c _ (put_conns_self _ _ _)
    refine ⟨hJ, c, .inl ⟨k, hk⟩, owed_conn hk rfl (fun d hd => rfl) ?_⟩
    have this : (k.sent ++ bs).length ≤ u c := this
    show 5 * (u c - (k.sent ++ bs).length) + 4 * (k.avail ++ bs).length + _ + _ + _ < _
    rw [List.length_append] at this ⊢
    rw [List.length_append]
    show _ + (if k.eof then 0 else 1) + (if k.fin = none then 1 else 0) + owes w.state c < _
    omega
  | hangup c k up hk he =>
    refine ⟨hJ, c, .inl ⟨k, hk⟩, owed_conn hk rfl (fun d hd => rfl) ?_⟩
    show _ + _ + (if true = true then 0 else 1) + (if k.fin = none then 1 else 0) + owes w.state c < _
    rw [he]
    simp only [if_true, Bool.false_eq_true, if_false]
    omega
  | reset c k up hk ho hb =>
    refine ⟨hJ, c, .inl ⟨k, hk⟩, owed_conn hk rfl (fun d hd => rfl) ?_⟩
    show _ + (if k.eof then 0 else 1) + (if some Accept.Fin.lost = none then 1 else 0) + owes w.state c < _
    rw [ho]
    simp
  | read c k q req r up hk ho hb hr =>
    obtain ⟨g1, g2, g3⟩ := hK.call w.state c req hJ
    refine ⟨g1, c, .inl ⟨k, hk⟩, owed_conn (w' := { w.put c { k with proto := some q, avail := r, busy := some (q, req) } with
        state := K.call w.state c req }) (k' := { k with proto := some q, avail := r, busy := some (q, req) }) hk rfl
      (fun d hd => g3 d hd) ?_⟩
    have hlt := readRequest_lt hr
    show 5 * (u c - k.sent.length) + 4 * r.length + (if k.eof then 0 else 1) + (if k.fin = none then 1 else 0)
      + owes (K.call w.state c req) c < _
    omega
  | bad c k e r up hk ho hb hr he =>
    refine ⟨hJ, c, .inl ⟨k, hk⟩, owed_conn hk rfl (fun d hd => rfl) ?_⟩
    show _ + (if k.eof then 0 else 1) + (if some Accept.Fin.served = none then 1 else 0) + owes w.state c < _
    rw [ho]
    simp
  | crash c k r up hk ho hb hr =>
    refine ⟨hJ, c, .inl ⟨k, hk⟩, owed_conn hk rfl (fun d hd => rfl) ?_⟩
    show _ + (if k.eof then 0 else 1) + (if some Accept.Fin.crashed = none then 1 else 0) + owes w.state c < _
    rw [ho]
    simp
  | work s up hs =>
    obtain ⟨g1, c, g2, g3⟩ := hK.step _ _ hJ hs
    refine ⟨g1, c, .inr (by omega), fun d hd => ?_, ?_⟩
    · unfold owed
      rw [g3 d hd]
    · unfold owed
      simp only
      omega
  | answer c k q req res s b up hk ho hb hs hwr => exact ret c k _ _ s _ hk hs rfl rfl rfl rfl rfl ho
  | answerLost c k q req res s b n up hk ho hb hs hwr => exact ret c k _ _ s _ hk hs rfl rfl rfl rfl rfl ho
  | refuse c k q req e s up hk ho hb hs => exact ret c k _ _ s _ hk hs rfl rfl rfl rfl rfl ho
  | unwritable c k q req res e s up hk ho hb hs hwr => exact ret c k _ _ s _ hk hs rfl rfl rfl rfl rfl ho
  | handlerCrash c k q req s up hk ho hb hs => exact ret c k _ _ s _ hk hs rfl rfl rfl rfl rfl ho
  | writeCrash c k q req res s up hk ho hb hs hwr => exact ret c k _ _ s _ hk hs rfl rfl rfl rfl rfl ho

theorem idle_works {R : Sched.Params T} {s' : Sched.State T} (hr : R.resp [] = []) (hw : Works R Sched.init s') (he : s'.ended = false) :
    False := by
  obtain ⟨hs, hne, hst⟩ := hw
  have idle : ∀ {t : T} {a : Sched.At}, (Sched.init : Sched.State T).pc t = a → a = .idle := fun h => h.symm
  cases hs with
  | call t c hp hc => exact hst ⟨t, rfl, by simp [Sched.goto_pc]⟩
  | callClose t hp _ => exact hst ⟨t, rfl, by simp [Sched.goto_pc]⟩
  | arrive x y _ _ hx =>
    have hx : R.resp [] = [] ++ x ++ y := hx
    rw [hr] at hx
    have hx0 : x = [] := by
      have := (List.append_eq_nil_iff.1 hx.symm).1
      simpa using this
    subst hx0
    exact hne rfl
  | hangUp => cases he
  | unencodable t c e hp _ => rcases hp with ⟨hp, _⟩ | ⟨hp, _⟩ <;> exact absurd (idle hp) (by simp)
  | unencodablePanic t c hp _ => rcases hp with ⟨hp, _⟩ | ⟨hp, _⟩ <;> exact absurd (idle hp) (by simp)
  | lock t c hp hl => exact absurd (idle hp) (by simp)
  | refuse t c hp _ _ => exact absurd (idle hp) (by simp)
  | pass t c hp _ => exact absurd (idle hp) (by simp)
  | writeDeadlineNil t c hp _ _ => exact absurd (idle hp) (by simp)
  | writeDeadline t c hp _ _ => exact absurd (idle hp) (by simp)
  | readDeadlineNil t c hp _ => exact absurd (idle hp) (by simp)
  | readDeadline t c w hp _ _ => exact absurd (idle hp) (by simp)
  | noDeadline t c w hp _ _ => exact absurd (idle hp) (by simp)
  | write t c x y hp _ _ => exact absurd (idle hp) (by simp)
  | writeFails t c x hp _ => exact absurd (idle hp) (by simp)
  | written t c hp _ => exact absurd (idle hp) (by simp)
  | read t c hp _ => exact absurd (idle hp) (by simp)
  | readFails t c hp _ _ => exact absurd (idle hp) (by simp)
  | readTimeout t c hp _ _ _ => exact absurd (idle hp) (by simp)
  | closeAgain t hp _ _ => exact absurd (idle hp) (by simp)
  | closeGo t hp _ => exact absurd (idle hp) (by simp)
  | closeRawNil t hp _ => exact absurd (idle hp) (by simp)
  | closeRaw t hp _ => exact absurd (idle hp) (by simp)
  | clearRaw t hp => exact absurd (idle hp) (by simp)
  | closeChanPanic t hp _ => exact absurd (idle hp) (by simp)
  | closeChan t hp _ _ => exact absurd (idle hp) (by simp)
  | clearChan t hp => exact absurd (idle hp) (by simp)

theorem owes_step (hK : Winds K J owes) {w w' : Accept.World σ} {a : Accept.Who} (hs : Accept.Step K w a w') (hJ : J w.state)
    (hw : ∀ c, w.conns c = none → owes w.state c = 0) : J w'.state ∧ ∀ c, w'.conns c = none → owes w'.state c = 0 := by
  have put : ∀ (d : Nat) (k : Conn) (c : Nat), (if c = d then some k else w.conns c) = none → c ≠ d ∧ w.conns c = none := by
    intro d k c hc
    by_cases hd : c = d
    · rw [if_pos hd] at hc; cases hc
    · rw [if_neg hd] at hc; exact ⟨hd, hc⟩
  have ret : ∀ (d : Nat) (k : Conn) (x : Res (List Response)) (s : σ), K.ret w.state d x s →
      J s ∧ ∀ c, (if c = d then some k else w.conns c) = none → owes s c = 0 := by
    intro d k x s hr
    obtain ⟨g1, _, g3⟩ := hK.ret _ _ _ _ hJ hr
    refine ⟨g1, fun c hc => ?_⟩
    rw [g3 c (put d k c hc).1]
    exact hw c (put d k c hc).2
  cases hs with
  | accept d up hl new => exact ⟨hJ, fun c hc => hw c (put d _ c hc).2⟩
  | acceptFails up hl => exact ⟨hJ, hw⟩
  | arrive d k bs up hk he => exact ⟨hJ, fun c hc => hw c (put d _ c hc).2⟩
  | hangup d k up hk he => exact ⟨hJ, fun c hc => hw c (put d _ c hc).2⟩
  | reset d k up hk ho hb => exact ⟨hJ, fun c hc => hw c (put d _ c hc).2⟩
  | bad d k e r up hk ho hb hr he => exact ⟨hJ, fun c hc => hw c (put d _ c hc).2⟩
  | crash d k r up hk ho hb hr => exact ⟨hJ, fun c hc => hw c (put d _ c hc).2⟩
  | read d k q req r up hk ho hb hr =>
    obtain ⟨g1, _, g3⟩ := hK.call w.state d req hJ
    refine ⟨g1, fun c hc => ?_⟩
    obtain ⟨h1, h2⟩ := put d _ c hc
    show owes (K.call w.state d req) c = 0
    rw [g3 c h1]
    exact hw c h2
  | work s up hs =>
    obtain ⟨g1, d, g2, g3⟩ := hK.step _ _ hJ hs
    refine ⟨g1, fun c hc => ?_⟩
    show owes s c = 0
    have hc0 := hw c hc
    by_cases hd : c = d
    · subst hd; omega
    · rw [g3 c hd]; exact hc0
  | answer d k q req res s b up hk ho hb hs hwr => exact ret d _ _ s hs
  | answerLost d k q req res s b n up hk ho hb hs hwr => exact ret d _ _ s hs
  | refuse d k q req e s up hk ho hb hs => exact ret d _ _ s hs
  | unwritable d k q req res e s up hk ho hb hs hwr => exact ret d _ _ s hs
  | handlerCrash d k q req s up hk ho hb hs => exact ret d _ _ s hs
  | writeCrash d k q req res s up hk ho hb hs hwr => exact ret d _ _ s hs

/-- Everything that happens brings the end nearer. -/
theorem moves_measure (hK : Winds K J owes) {cs : List Nat} {ts : Nat → List T} {q q' : State T σ} (hw : Within J owes cs ts q)
    (hm : Moves P K q q') :
    Within J owes cs ts q' ∧ Sched.Less (measure owes cs ts q') (measure owes cs ts q) := by
  obtain ⟨hs, hne, hst, hen, hlost, hacc, hlis⟩ := hm
  cases hs with
  | user c s' h =>
    have hs' : ∀ d, d = c → (if d = c then s' else q.users d) = s' := fun d hd => if_pos hd
    have ho : ∀ d, d ≠ c → (if d = c then s' else q.users d) = q.users d := fun d hd => if_neg hd
    have hworks : Works { P c with resp := fun _ => q.out c } (q.users c) s' := by
      refine ⟨h, fun he => ?_, ?_⟩
      · apply hne
        have : (fun d => if d = c then s' else q.users d) = q.users := by
          funext d
          by_cases hd : d = c
          · rw [hs' d hd, he, hd]
          · rw [ho d hd]
        rw [this]
      · have h1 : ¬ Starts (q.users c) (if c = c then s' else q.users c) := hst c
        rwa [if_pos rfl] at h1
    have hen' : s'.ended = (q.users c).ended := by
      have h1 : (if c = c then s' else q.users c).ended = (q.users c).ended := hen c
      rwa [if_pos rfl] at h1
    have hc : c ∈ cs := by
      apply Classical.byContradiction
      intro hc
      have h1 := hw.users c hc
      have h2 := hw.conns c hc
      rw [h1] at hworks hen'
      refine idle_works ?_ hworks hen'
      show q.out c = []
      unfold State.out
      rw [h2]
    constructor
    · refine ⟨fun d hd => ?_, hw.conns, hw.inside, hw.waiting, fun d => ?_⟩
      · show (if d = c then s' else q.users d) = _
        rw [ho d (by rintro rfl; exact hd hc)]
        exact hw.users d hd
      · show Sched.Among (ts d) (if d = c then s' else q.users d)
        by_cases hd : d = c
        · rw [hs' d hd]; subst hd; exact (hw.among d).works hworks
        · rw [ho d hd]; exact hw.among d
    · rcases sent_todo (hw.among c) hworks with hlt | ⟨h1, h2, h3⟩
      · refine .left _ _ (sum_change hc (fun d hd => ?_) ?_)
        · show Sched.todo (ts d) (if d = c then s' else q.users d) = _
          rw [ho d hd]
        · show Sched.todo (ts c) (if c = c then s' else q.users c) < _
          rw [if_pos rfl]; exact hlt
      · have e1 : (fun d => Sched.todo (ts d) (if d = c then s' else q.users d)) = fun d => Sched.todo (ts d) (q.users d) := by
          funext d
          by_cases hd : d = c
          · rw [hs' d hd]; subst hd; exact h1
          · rw [ho d hd]
        have e2 : (fun d => owed owes q.server d (if d = c then s' else q.users d).sent.length) = fun d => owed owes q.server d (q.users d).sent.length := by
          funext d
          by_cases hd : d = c
          · rw [hs' d hd]; subst hd; rw [h2]
          · rw [ho d hd]
        show Sched.Less ((cs.map fun d => Sched.todo (ts d) (if d = c then s' else q.users d)).sum,
          (cs.map fun d => owed owes q.server d (if d = c then s' else q.users d).sent.length).sum, _) _
        rw [e1, e2]
        refine .right _ (.right _ (sum_change hc (fun d hd => ?_) ?_))
        · show 3 * ((q.out d).length - (if d = c then s' else q.users d).got.length)
            + ((if (if d = c then s' else q.users d).ended then 0 else 1) + (if (if d = c then s' else q.users d).crashed then 0 else 1)) = _
          rw [ho d hd]
          rfl
        · show 3 * ((q.out c).length - (if c = c then s' else q.users c).got.length)
            + ((if (if c = c then s' else q.users c).ended then 0 else 1) + (if (if c = c then s' else q.users c).crashed then 0 else 1)) < _
          rw [if_pos rfl]
          exact h3
  | server a w' h net =>
    have hne' : w' ≠ q.server := fun he => hne (by rw [he])
    obtain ⟨g1, g2⟩ := owes_step hK h hw.inside hw.waiting
    refine ⟨⟨hw.users, fun d hd => hacc d (hw.conns d hd), g1, g2, hw.among⟩, ?_⟩
    obtain ⟨_, c, h1, h2, h3⟩ := server_owed hK h hw.inside (u := fun d => (q.users d).sent.length) (fun d k hk => (net d k hk).1.length_le) hne' hacc hlis
    have hc : c ∈ cs := by
      apply Classical.byContradiction
      intro hc
      have h4 := hw.conns c hc
      rcases h1 with ⟨k, hk⟩ | hreq
      · rw [h4] at hk; cases hk
      · rw [hw.waiting c h4] at hreq; cases hreq
    exact .right _ (.left _ _ (sum_change hc h2 h3))

/-- Only finitely many clients have done anything. -/
theorem within_of {s1 : σ} {q : State T σ} (hl : Later P K (init s1) q)
    (hin : J q.server.state ∧ ∀ c, q.server.conns c = none → owes q.server.state c = 0) :
    ∃ cs ts, Within J owes cs ts q := by
  have hfin : ∃ cs : List Nat, (∀ c, c ∉ cs → q.users c = Sched.init) ∧ ∀ c, c ∉ cs → q.server.conns c = none := by
    clear hin
    induction hl with
    | refl => exact ⟨[], fun _ _ => rfl, fun _ _ => rfl⟩
    | @step v u hv hs ih =>
      obtain ⟨cs, h1, h2⟩ := ih
      cases hs with
      | user c s' h =>
        refine ⟨c :: cs, fun d hd => ?_, fun d hd => h2 d (fun hm => hd (by simp [hm]))⟩
        show (if d = c then s' else v.users d) = _
        rw [if_neg (by rintro rfl; exact hd (by simp))]
        exact h1 d (fun hm => hd (by simp [hm]))
      | server a w' h net =>
        have one : ∃ c, ∀ d, d ≠ c → v.server.conns d = none → w'.conns d = none := by
          have put : ∀ (c : Nat) (k : Conn), ∃ c', ∀ d, d ≠ c' → v.server.conns d = none → (if d = c then some k else v.server.conns d) = none :=
            fun c k => ⟨c, fun d hd hn => by rw [if_neg hd]; exact hn⟩
          cases h with
          | acceptFails up hl => exact ⟨0, fun _ _ hn => hn⟩
          | work s up hs => exact ⟨0, fun _ _ hn => hn⟩
          | _ => exact put _ _
        obtain ⟨c, hc⟩ := one
        refine ⟨c :: cs, fun d hd => h1 d (fun hm => hd (by simp [hm])), fun d hd => ?_⟩
        exact hc d (by rintro rfl; exact hd (by simp)) (h2 d (fun hm => hd (by simp [hm])))
  obtain ⟨cs, h1, h2⟩ := hfin
  have ham : ∀ c, ∃ ts, Sched.Among ts (q.users c) := fun c => by
    obtain ⟨l, hr⟩ := reach_any hl c
    exact Sched.among hr
  exact ⟨cs, fun c => (ham c).choose, h1, h2, hin.1, hin.2, fun c => (ham c).choose_spec⟩

theorem within (hK : Winds K J owes) {s1 : σ} (hJ : J s1) (h0 : ∀ c, owes s1 c = 0) {q : State T σ} (hl : Later P K (init s1) q) :
    ∃ cs ts, Within J owes cs ts q := by
  refine within_of hl ?_
  induction hl with
  | refl => exact ⟨hJ, fun c _ => h0 c⟩
  | step _ hs ih =>
    cases hs with
    | user c s' h => exact ih
    | server a w' h net => exact owes_step hK h ih.1 ih.2

/-- No endless runs. -/
theorem no_end (hK : Winds K J owes) {q : State T σ} {cs : List Nat} {ts : Nat → List T} (hw : Within J owes cs ts q) :
    ¬ ∃ f : Nat → State T σ, f 0 = q ∧ ∀ n, Moves P K (f n) (f (n + 1)) := by
  rintro ⟨f, h0, hf⟩
  have hin : ∀ n, Within J owes cs ts (f n) := by
    intro n
    induction n with
    | zero => rw [h0]; exact hw
    | succ n ih => exact (moves_measure hK ih (hf n)).1
  exact Sched.no_descent (Sched.less_wf.apply _) (fun n => measure owes cs ts (f n)) rfl fun n => (moves_measure hK (hin n) (hf n)).2

/-- A run can be continued until nothing more happens. -/
theorem come_to_rest (hK : Winds K J owes) {q : State T σ} {cs : List Nat} {ts : Nat → List T} (hw : Within J owes cs ts q) :
    ∃ q', MovesOn P K q q' ∧ Rests P K q' := by
  have key : ∀ m, ∀ v, measure owes cs ts v = m → Within J owes cs ts v → MovesOn P K q v →
      ∃ q', MovesOn P K q q' ∧ Rests P K q' := by
    intro m
    induction m using Sched.less_wf.induction with
    | _ m ih =>
      intro v hv hw hon
      by_cases hr : Rests P K v
      · exact ⟨v, hon, hr⟩
      · obtain ⟨u, hu⟩ : ∃ u, Moves P K v u := Classical.byContradiction fun hc => hr fun u hu => hc ⟨u, hu⟩
        obtain ⟨h1, h2⟩ := moves_measure hK hw hu
        exact ih _ (hv ▸ h2) u rfl h1 (.step hon hu)
  exact key _ q rfl hw .refl

/-- What a handler that does one call at a time owes. -/
def atomicOwes (a : Atomic σ) (c : Nat) : Nat :=
  (if (a.waiting c).isSome then 2 else 0) + (if (a.ready c).isSome then 1 else 0)

theorem atomic_winds : Winds (atomically h) (fun _ => True) atomicOwes where
  call s c req _ := by
    refine ⟨trivial, ?_, fun d hd => ?_⟩
    · show atomicOwes { s with waiting := fun d => if d = c then some req else s.waiting d } c ≤ 3
      simp only [atomicOwes, if_true, Option.isSome_some]
      split <;> omega
    · show atomicOwes { s with waiting := fun d => if d = c then some req else s.waiting d } d = _
      simp only [atomicOwes, if_neg hd]
  step s s' _ hs := by
    obtain ⟨c, req, hreq, rfl⟩ := hs
    refine ⟨trivial, c, ?_, fun d hd => ?_⟩
    · simp only [atomicOwes, hreq, if_true, Option.isSome_none, Option.isSome_some, Bool.false_eq_true, if_false]
      omega
    · simp only [atomicOwes, if_neg hd]
  ret s c x s' _ hs := by
    obtain ⟨hx, rfl⟩ := hs
    refine ⟨trivial, ?_, fun d hd => ?_⟩
    · simp only [atomicOwes, hx, if_true, Option.isSome_none, Option.isSome_some, Bool.false_eq_true, if_false]
      omega
    · simp only [atomicOwes, if_neg hd]

/-- **C81 (no endless runs).** Calls under way do not go on for ever, however many clients there are and whatever the
handler answers: without new calls and new connections only finitely many things happen. -/
theorem C81_finite {q : State T (Atomic σ)} (hl : Later P (atomically h) (init (.init s0)) q) :
    ¬ ∃ f : Nat → State T (Atomic σ), f 0 = q ∧ ∀ n, Moves P (atomically h) (f n) (f (n + 1)) := by
  obtain ⟨cs, ts, hw⟩ := within (atomic_winds (h := h)) (s1 := Atomic.init s0) trivial (fun _ => rfl) hl
  exact no_end atomic_winds hw

/-- **C81 (rest is reached).** However long a run has gone on, it can be continued until nothing more happens. -/
theorem C81_run_on {q : State T (Atomic σ)} (hl : Later P (atomically h) (init (.init s0)) q) :
    ∃ q', MovesOn P (atomically h) q q' ∧ Rests P (atomically h) q' := by
  obtain ⟨cs, ts, hw⟩ := within (atomic_winds (h := h)) (s1 := Atomic.init s0) trivial (fun _ => rfl) hl
  exact come_to_rest atomic_winds hw

theorem _root_.Verif.Spec.MovesOn.later {q q' : State T (Atomic σ)} (hm : MovesOn P (atomically h) q q') : Later P (atomically h) q q' := by
  induction hm with
  | refl => exact .refl
  | step _ hs ih => exact .step ih hs.step

end Joint
end Verif
