import Verif.Props.JointUsers
import Verif.Spec.Shared
/-!
C81: any number of clients of this module, each shared by goroutines, connected to one server of this module.
-/

namespace Verif
namespace Joint
open Srv Spec Props
open Accept (Conn Concurrent Run Atomic atomically)

variable {T : Type} [DecidableEq T] {σ τ : Type}

/-! ### The server's side -/

/-- What happens to a connection in one step of the server. -/
structure Grew (k k' : Conn) : Prop where
  done : k.done <+: k'.done
  sent : k.sent <+: k'.sent

theorem grew_step {H : Concurrent σ} {w w' : Accept.World σ} {a : Accept.Who} (hs : Accept.Step H w a w') {c : Nat} {k : Conn}
    (hk : w.conns c = some k) : ∃ k', w'.conns c = some k' ∧ Grew k k' := by
  have same : Grew k k := ⟨List.prefix_refl _, List.prefix_refl _⟩
  have upd : ∀ (d : Nat) (k1 k2 : Conn), w.conns d = some k1 → k1.done <+: k2.done → k1.sent <+: k2.sent →
      ∃ k', (if c = d then some k2 else w.conns c) = some k' ∧ Grew k k' := by
    intro d k1 k2 h1 h2 h3
    by_cases hc : c = d
    · subst hc
      rw [hk] at h1
      cases h1
      exact ⟨k2, if_pos rfl, h2, h3⟩
    · exact ⟨k, by rw [if_neg hc]; exact hk, same⟩
  have pre : ∀ l : List (Request × Res (List Response)), l <+: l := fun _ => List.prefix_refl _
  have preb : ∀ l : Bytes, l <+: l := fun _ => List.prefix_refl _
  cases hs with
  | accept d up hl new =>
    have hc : c ≠ d := by rintro rfl; rw [new] at hk; cases hk
    exact ⟨k, by show (if c = d then _ else w.conns c) = _; rw [if_neg hc]; exact hk, same⟩
  | acceptFails up hl => exact ⟨k, hk, same⟩
  | work s up hs => exact ⟨k, hk, same⟩
  | arrive d k1 bs up h1 he => exact upd d k1 _ h1 (pre _) (List.prefix_append _ _)
  | hangup d k1 up h1 he => exact upd d k1 _ h1 (pre _) (preb _)
  | reset d k1 up h1 ho hb => exact upd d k1 _ h1 (pre _) (preb _)
  | read d k1 q req r up h1 ho hb hr => exact upd d k1 _ h1 (pre _) (preb _)
  | bad d k1 e r up h1 ho hb hr he => exact upd d k1 _ h1 (pre _) (preb _)
  | crash d k1 r up h1 ho hb hr => exact upd d k1 _ h1 (pre _) (preb _)
  | answer d k1 q req res s b up h1 ho hb hs hwr => exact upd d k1 _ h1 (List.prefix_append _ _) (preb _)
  | answerLost d k1 q req res s b n up h1 ho hb hs hwr => exact upd d k1 _ h1 (List.prefix_append _ _) (preb _)
  | refuse d k1 q req e s up h1 ho hb hs => exact upd d k1 _ h1 (List.prefix_append _ _) (preb _)
  | unwritable d k1 q req res e s up h1 ho hb hs hwr => exact upd d k1 _ h1 (List.prefix_append _ _) (preb _)
  | handlerCrash d k1 q req s up h1 ho hb hs => exact upd d k1 _ h1 (List.prefix_append _ _) (preb _)
  | writeCrash d k1 q req res s up h1 ho hb hs hwr => exact upd d k1 _ h1 (List.prefix_append _ _) (preb _)

theorem read_nil (q : Option Protocol) : (readRequest q []).1 = .err .io := by
  cases q with
  | none => rfl
  | some p => cases p <;> rfl

/-- If what a connection receives is an initial part of a stream of requests of one protocol, what has been read of it are
the first of these, and the rest is still to be read. -/
def Legible (p : Protocol) (k : Conn) : Prop := ∀ more reqs, ReadsAs p reqs none (k.sent ++ more) [] →
  ∃ todo, reqs = requests k ++ todo ∧ (k.fin = none → ReadsAs p todo k.proto (k.avail ++ more) [])
    ∧ (∀ q req, k.busy = some (q, req) → q = p)
    ∧ (k.fin = none ∨ k.fin = some .lost ∨ k.fin = some .served ∧ k.eof = true ∨ (∃ e ∈ k.done, ∀ rs, e.2 ≠ .ok rs)
      ∨ ∃ e ∈ k.done, ∃ rs, e.2 = .ok rs ∧ ∀ b, writeResponse p e.1 rs ≠ .ok b)

theorem requests_answered {k : Conn} {q : Protocol} {req : Request} (hb : k.busy = some (q, req)) {d : List (Request × Res (List Response))}
    {x : Res (List Response)} (hd : d = k.done ++ [(req, x)]) : d.map (·.1) ++ ((none : Option (Protocol × Request)).map (·.2)).toList = requests k := by
  subst hd
  unfold requests
  rw [hb]
  simp

theorem legible_step {H : Concurrent σ} {w w' : Accept.World σ} {a : Accept.Who} (hs : Accept.Step H w a w') {p : Protocol} {c : Nat}
    (hw : ∀ k, w.conns c = some k → Legible p k) : ∀ k, w'.conns c = some k → Legible p k := by
  have upd : ∀ (d : Nat) (k1 k2 : Conn), w.conns d = some k1 → (Legible p k1 → Legible p k2) →
      ∀ k', (if c = d then some k2 else w.conns c) = some k' → Legible p k' := by
    intro d k1 k2 h1 h2 k' h
    by_cases hc : c = d
    · subst hc
      rw [if_pos rfl] at h
      cases h
      exact h2 (hw k1 h1)
    · rw [if_neg hc] at h
      exact hw k' h
  have ret : ∀ (d : Nat) (k1 k2 : Conn) (q : Protocol) (req : Request) (x : Res (List Response)), w.conns d = some k1 →
      k1.fin = none → k1.busy = some (q, req) → k2.sent = k1.sent → k2.done = k1.done ++ [(req, x)] → k2.busy = none →
      k2.proto = k1.proto → k2.avail = k1.avail →
      (q = p → k2.fin = none ∨ k2.fin = some .lost ∨ (∀ rs, x ≠ .ok rs) ∨ ∃ rs, x = .ok rs ∧ ∀ b, writeResponse p req rs ≠ .ok b) →
      ∀ k', (if c = d then some k2 else w.conns c) = some k' → Legible p k' := by
    intro d k1 k2 q req x h1 h2 h3 h4 h5 h6 h7 h8 h9
    refine upd d k1 k2 h1 fun hl more reqs hr => ?_
    rw [h4] at hr
    obtain ⟨todo, e1, e2, e3, _⟩ := hl more reqs hr
    refine ⟨todo, ?_, ?_, ?_, ?_⟩
    · rw [e1]
      congr 1
      unfold requests
      rw [h6]
      exact (requests_answered h3 h5).symm
    · intro _
      rw [h7, h8]
      exact e2 h2
    · intro q' req' hb
      rw [h6] at hb; cases hb
    · rcases h9 (e3 q req h3) with h | h | h | ⟨rs, h, hh⟩
      · exact .inl h
      · exact .inr (.inl h)
      · exact .inr (.inr (.inr (.inl ⟨(req, x), by rw [h5]; simp, h⟩)))
      · exact .inr (.inr (.inr (.inr ⟨(req, x), by rw [h5]; simp, rs, h, hh⟩)))
  cases hs with
  | accept d up hl new =>
    intro k' h
    by_cases hc : c = d
    · have h : (if c = d then some Conn.new else w.conns c) = some k' := h
      rw [if_pos hc] at h
      cases h
      intro more reqs hr
      exact ⟨reqs, rfl, fun _ => hr, fun _ _ h => by (cases h), .inl rfl⟩
    · have h : (if c = d then some Conn.new else w.conns c) = some k' := h
      rw [if_neg hc] at h
      exact hw k' h
  | acceptFails up hl => exact hw
  | work s up hs => exact hw
  | arrive d k1 bs up h1 he =>
    refine upd d k1 _ h1 fun hl more reqs hr => ?_
    have hr : ReadsAs p reqs none ((k1.sent ++ bs) ++ more) [] := hr
    rw [List.append_assoc] at hr
    obtain ⟨todo, e1, e2, e3, e4⟩ := hl (bs ++ more) reqs hr
    refine ⟨todo, e1, fun hf => ?_, e3, e4⟩
    show ReadsAs p todo k1.proto ((k1.avail ++ bs) ++ more) []
    rw [List.append_assoc]
    exact e2 hf
  | hangup d k1 up h1 he =>
    refine upd d k1 _ h1 fun hl more reqs hr => ?_
    obtain ⟨todo, e1, e2, e3, e4⟩ := hl more reqs hr
    refine ⟨todo, e1, e2, e3, ?_⟩
    rcases e4 with h | h | h | h | h
    · exact .inl h
    · exact .inr (.inl h)
    · rw [he] at h; cases h.2
    · exact .inr (.inr (.inr (.inl h)))
    · exact .inr (.inr (.inr (.inr h)))
  | reset d k1 up h1 ho hb =>
    refine upd d k1 _ h1 fun hl more reqs hr => ?_
    obtain ⟨todo, e1, e2, e3, _⟩ := hl more reqs hr
    exact ⟨todo, e1, fun hf => by (cases hf), e3, .inr (.inl rfl)⟩
  | read d k1 q req r up h1 ho hb hr =>
    refine upd d k1 _ h1 fun hl more reqs hrd => ?_
    obtain ⟨todo, e1, e2, _, _⟩ := hl more reqs hrd
    have e2 := e2 ho
    have hst := stable_readRequest' k1.proto k1.avail more (by rw [hr]; simp)
    rw [hr] at hst
    cases todo with
    | nil =>
      have e2 : k1.avail ++ more = [] := e2
      rw [e2] at hst
      have := read_nil k1.proto
      rw [hst] at this
      cases this
    | cons x todo =>
      obtain ⟨mid, e3, e4⟩ := e2
      rw [hst] at e3
      cases e3
      refine ⟨todo, ?_, fun _ => e4, fun q' req' h => by (cases h; rfl), .inl ho⟩
      rw [e1]
      unfold requests
      rw [hb]
      simp
  | bad d k1 e r up h1 ho hb hr he =>
    refine upd d k1 _ h1 fun hl more reqs hrd => ?_
    obtain ⟨todo, e1, e2, e3, _⟩ := hl more reqs hrd
    refine ⟨todo, e1, fun hf => by (cases hf), e3, .inr (.inr (.inl ⟨rfl, ?_⟩))⟩
    rcases he with he | he
    · exfalso
      have e2 := e2 ho
      have hst := stable_readRequest' k1.proto k1.avail more (by rw [hr]; simpa using he)
      rw [hr] at hst
      cases todo with
      | nil =>
        have e2 : k1.avail ++ more = [] := e2
        rw [e2] at hst
        have := read_nil k1.proto
        rw [hst] at this
        simp at this
        exact he this
      | cons x todo =>
        obtain ⟨mid, e3, e4⟩ := e2
        rw [hst] at e3
        cases e3
    · exact he
  | crash d k1 r up h1 ho hb hr =>
    refine upd d k1 _ h1 fun hl more reqs hrd => ?_
    exfalso
    obtain ⟨todo, e1, e2, e3, _⟩ := hl more reqs hrd
    have e2 := e2 ho
    have hst := stable_readRequest' k1.proto k1.avail more (by rw [hr]; simp)
    rw [hr] at hst
    cases todo with
    | nil =>
      have e2 : k1.avail ++ more = [] := e2
      rw [e2] at hst
      have := read_nil k1.proto
      rw [hst] at this
      cases this
    | cons x todo =>
      obtain ⟨mid, e3, e4⟩ := e2
      rw [hst] at e3
      cases e3
  | answer d k1 q req res s b up h1 ho hb hs hwr => exact ret d k1 _ q req _ h1 ho hb rfl rfl rfl rfl rfl fun _ => .inl ho
  | answerLost d k1 q req res s b n up h1 ho hb hs hwr => exact ret d k1 _ q req _ h1 ho hb rfl rfl rfl rfl rfl fun _ => .inr (.inl rfl)
  | refuse d k1 q req e s up h1 ho hb hs =>
    exact ret d k1 _ q req _ h1 ho hb rfl rfl rfl rfl rfl fun _ => .inr (.inr (.inl fun rs h => by cases h))
  | unwritable d k1 q req res e s up h1 ho hb hs hwr =>
    exact ret d k1 _ q req _ h1 ho hb rfl rfl rfl rfl rfl fun hq => .inr (.inr (.inr ⟨res, rfl, fun b h => by
      rw [← hq, hwr] at h; cases h⟩))
  | handlerCrash d k1 q req s up h1 ho hb hs =>
    exact ret d k1 _ q req _ h1 ho hb rfl rfl rfl rfl rfl fun _ => .inr (.inr (.inl fun rs h => by cases h))
  | writeCrash d k1 q req res s up h1 ho hb hs hwr =>
    exact ret d k1 _ q req _ h1 ho hb rfl rfl rfl rfl rfl fun hq => .inr (.inr (.inr ⟨res, rfl, fun b h => by
      rw [← hq, hwr] at h; cases h⟩))

theorem legible_run {H : Concurrent σ} {s : σ} {w : Accept.World σ} (hr : Run H (.init s) w) (p : Protocol) {c : Nat} :
    ∀ k, w.conns c = some k → Legible p k := by
  induction hr with
  | refl => intro k h; cases h
  | tail v u a _ hs ih => exact legible_step hs ih

/-! ### The requests of operations as the server reads them -/

theorem readsAs_append {p : Protocol} {as bs : List Request} : ∀ {q : Option Protocol} {i mid rest : Bytes},
    ReadsAs p as q i mid → (∀ q', q' = q ∨ q' = some p → ReadsAs p bs q' mid rest) → ReadsAs p (as ++ bs) q i rest := by
  induction as with
  | nil => intro q i mid rest h1 h2; cases h1; exact h2 q (.inl rfl)
  | cons a as ih =>
    intro q i mid rest h1 h2
    obtain ⟨m, h3, h4⟩ := h1
    exact ⟨m, h3, ih h4 fun q' hq => h2 q' (.inr (hq.elim id id))⟩

theorem reads_issue {p : Proto} {i : Issue} (fit : Fit p i.ask) : ∃ w, (i.use p).wire = .ok w ∧
    ∀ q, q = none ∨ q = some p.wire → ∀ rest, ReadsAs p.wire (asked p i.ask) q (w ++ rest) rest := by
  by_cases hb : ∃ op, i.ask = .op op ∧ Flow.Batch p op
  · obtain ⟨op, ho, hb⟩ := hb
    obtain ⟨rfl, ks, rfl, hk⟩ := batch_is fit ho hb
    obtain ⟨a, h1, h2⟩ := i
    have ho : a = _ := ho
    subst ho
    exact C10_getMulti h1 h2 ks hk
  · obtain ⟨req, hreq, w, hw, hread⟩ := Flow.arrives_ask p i fit fun op ho hB => hb ⟨op, ho, hB⟩
    refine ⟨w, hw, fun q hq rest => ?_⟩
    rw [hreq]
    exact ⟨rest, hread q hq rest, rfl⟩

theorem reads_issues {p : Proto} (is : List Issue) (hf : ∀ i ∈ is, Fit p i.ask) : ∀ q, q = none ∨ q = some p.wire →
    ReadsAs p.wire (is.flatMap fun i => asked p i.ask) q (wiresOf (is.map (Issue.use p))) [] := by
  induction is with
  | nil => intro q _; exact rfl
  | cons i is ih =>
    intro q hq
    obtain ⟨w, hw, hr⟩ := reads_issue (hf i (by simp))
    have e4 : wiresOf ((i :: is).map (Issue.use p)) = w ++ wiresOf (is.map (Issue.use p)) := by
      rw [List.map_cons, wiresOf, hw]
    rw [e4, List.flatMap_cons]
    exact readsAs_append (hr q hq _) fun q' hq' => ih (fun j hj => hf j (by simp [hj])) q' (by
      rcases hq' with rfl | rfl
      · exact hq
      · exact .inr rfl)

theorem readsAs_unique {p : Protocol} {as bs : List Request} : ∀ {q : Option Protocol} {i : Bytes},
    ReadsAs p as q i [] → ReadsAs p bs q i [] → as = bs := by
  induction as generalizing bs with
  | nil =>
    intro q i h1 h2
    cases h1
    cases bs with
    | nil => rfl
    | cons b bs =>
      obtain ⟨m, h3, _⟩ := h2
      have := read_nil q
      rw [h3] at this
      cases this
  | cons a as ih =>
    intro q i h1 h2
    obtain ⟨m, h3, h4⟩ := h1
    cases bs with
    | nil =>
      cases h2
      have := read_nil q
      rw [h3] at this
      cases this
    | cons b bs =>
      obtain ⟨m', h5, h6⟩ := h2
      rw [h3] at h5
      cases h5
      rw [ih h4 h6]

/-! ### A client sees a server of its own -/

theorem Gave.of_prefix {h : Handler τ} {a b : List (Request × Res (List Response))} : ∀ {t t' : τ}, Gave h t (a ++ b) t' →
    ∃ m, Gave h t a m := by
  induction a with
  | nil => intro t t' _; exact ⟨t, rfl⟩
  | cons e a ih =>
    intro t t' h
    obtain ⟨m, hm⟩ := ih h.2
    exact ⟨m, h.1, hm⟩

variable {P : Nat → Sched.Params T} {H : Concurrent σ} {s0 : σ}

theorem server_run {q : State T σ} (hl : Later P H (init s0) q) : Run H (.init s0) q.server := by
  induction hl with
  | refl => exact .refl
  | step _ hs ih =>
    cases hs with
    | user c s' h => exact ih
    | server a w' h net => exact .tail _ _ _ ih h

theorem net_ok {q : State T σ} (hl : Later P H (init s0) q) : ∀ c k, q.server.conns c = some k →
    k.sent <+: (q.users c).sent ∧ (k.eof = true → (q.users c).isOpen = false) := by
  induction hl with
  | refl => intro c k h; cases h
  | @step v u _ hs ih =>
    cases hs with
    | user c s' h =>
      intro d k hk
      obtain ⟨h1, h2⟩ := ih d k hk
      show k.sent <+: (if d = c then s' else v.users d).sent ∧ (k.eof = true → (if d = c then s' else v.users d).isOpen = false)
      by_cases hd : d = c
      · subst hd
        rw [if_pos rfl]
        have := sched_mono h
        exact ⟨h1.trans this.1, fun he => this.2.1 (h2 he)⟩
      · rw [if_neg hd]; exact ⟨h1, h2⟩
    | server a w' h net => exact net

/-- Whatever the other clients and the handler do: client `c` sees a server whose handler gives the answers it was given. -/
theorem alone {q : State T σ} (hl : Later P H (init s0) q) (c : Nat) (τ : Type) (g : Handler τ) (t : τ)
    (hg : ∀ k, q.server.conns c = some k → ∃ t', Gave g t k.done t') :
    Sched.Reach { P c with resp := fun i => (serve g none t i).out } (q.users c) := by
  induction hl with
  | refl => exact .init
  | @step v u hv hs ih =>
    cases hs with
    | user d s' h =>
      have ih := ih hg
      show Sched.Reach _ (if c = d then s' else v.users c)
      by_cases hd : c = d
      · subst hd
        rw [if_pos rfl]
        refine .step ih (step_other h fun ho _ x y hx => ?_)
        have hx : v.out c = _ := hx
        unfold State.out at hx
        cases hk : v.server.conns c with
        | none =>
          rw [hk] at hx
          have h1 := List.append_eq_nil_iff.1 hx.symm
          rw [h1.1]
          exact ⟨_, rfl⟩
        | some k =>
          rw [hk] at hx
          have hx : k.out = _ := hx
          obtain ⟨t', hg⟩ := hg k hk
          obtain ⟨⟨more, hm⟩, he⟩ := net_ok hv c k hk
          obtain ⟨z, hz⟩ := (C56_prefix (server_run hv) hk more (fun e => by rw [he e] at ho; cases ho) hg).2
          refine ⟨y ++ z, ?_⟩
          show (serve g none t (v.users c).sent).out = _
          rw [← hm, ← hz, hx]
          simp
      · rw [if_neg hd]; exact ih
    | server a w' h net =>
      refine ih fun k hk => ?_
      obtain ⟨k', h1, ⟨⟨l, hd⟩, _⟩⟩ := grew_step h hk
      obtain ⟨t', h2⟩ := hg k' h1
      rw [← hd] at h2
      exact Gave.of_prefix h2

end Joint
end Verif
