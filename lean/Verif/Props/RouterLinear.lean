import Verif.Spec.Shared
import Verif.Proxy.Sched
import Verif.Props.ReplicaAgree
import Verif.Props.Router
import Verif.Props.Accept
/-!
C59: the router with any number of clients at once.
-/

namespace Verif
namespace Props
open Srv Spec Accept Pool Cluster Kv Mc Proxy

variable {S : Type} [DecidableEq S]

/-! ### one request -/

/-- The first call a request makes on a memcached server decides its answer. -/
theorem begin_first {H : Hashes} {r : ReplicaPool S} {p q : Bytes → S} (hp : ∀ k, r.primary.pick H k = .ok (p k))
    (hq : ∀ k, r.secondary.pick H k = .ok (q k)) {req : Request} (hg : GoodRequest req)
    {s : S} {op : Op} {f : Res Out → Prog S} {fin : Res Out → Res (List Response)}
    (hb : begin H r req = ⟨.call s op f, fin⟩) {w : Pool.World S} {n : Nat} (hw : Healthy w (n + 1)) {t : Nat}
    (ht : ∀ s, (w s).now = t) :
    Stage H r p q op (callStep s op w).1 (f (callStep s op w).1) ∧ ¬ IsArith op
      ∧ fin (callStep s op w).1 = (shelfAnswer (onPrimaries H r t w) req).1
      ∧ (shelfAnswer (onPrimaries H r t w) req).2 = onPrimaries H r t (callStep s op w).2
      ∧ Healthy (callStep s op w).2 n ∧ ∀ x, ((callStep s op w).2 x).now = t := by
  have hnow : ∀ (k : Bytes) (o : Op) x, (World.update w (p k) (metaApi (w (p k)) o).2 x).now = t := by
    intro k o x
    by_cases hx : x = p k
    · subst hx; rw [update_same, metaApi_now]; exact ht _
    · rw [update_other _ _ hx]; exact ht _
  unfold begin at hb
  by_cases h1 : req.opcode = opGet
  · rw [if_pos h1] at hb
    have hk := hg.1 h1
    obtain ⟨k, f', hkey, hprog, hgood, hstage⟩ := stage_first (o := .get req.key) hp hq hk
    rw [hprog] at hb
    cases hb
    cases hkey
    rw [callStep_meta (p req.key) _ w (hw.1 _).1 (hgood _)]
    have hst : (metaApi (w (p req.key)) (.get req.key)).2 = w (p req.key) := by simp only [metaApi]; split <;> rfl
    refine ⟨hstage _, fun h => h, ?_, ?_, healthy_call hw _ _ (hgood _), hnow _ _⟩
    · unfold shelfAnswer
      rw [if_pos h1, shelf_value (hp _) (ht _)]
      simp only [metaApi]
      cases (w (p req.key)).find req.key with
      | none => rfl
      | some e => rfl
    · simp only
      rw [hst, update_id]
      unfold shelfAnswer
      rw [if_pos h1]
      split <;> rfl
  · rw [if_neg h1] at hb
    by_cases h2 : req.opcode = opSet
    · rw [if_pos h2] at hb
      obtain ⟨o, ho, hc0, hi⟩ := hg.2 h2
      rw [ho] at hb
      simp only at hb
      have hi' : CopyOp (.set (itemOf req o)) := by
        refine ⟨?_, hc0⟩
        unfold itemOf
        rw [hc0]
        exact hi
      obtain ⟨k, f', hkey, hprog, hgood, hstage⟩ := stage_first (o := .set (itemOf req o)) hp hq hi'
      rw [hprog] at hb
      cases hb
      cases hkey
      rw [callStep_meta (p _) _ w (hw.1 _).1 (hgood _)]
      refine ⟨hstage _, fun h => h, ?_, ?_, healthy_call hw _ _ (hgood _), hnow _ _⟩
      · unfold shelfAnswer
        rw [if_neg h1, if_pos h2, ho, set_plain _ _ hc0]
        rfl
      · unfold shelfAnswer
        rw [if_neg h1, if_pos h2, ho, set_plain _ _ hc0]
        simp only
        unfold onPrimaries Shelf.put
        simp only [Shelf.mk.injEq, and_true]
        funext x
        rw [hp x]
        simp only
        by_cases hx : x = req.key
        · subst hx
          rw [if_pos rfl]
          show _ = Option.map _ ((World.update w (p req.key) _ (p req.key)).data req.key)
          rw [update_same]
          show _ = Option.map _ ((Store.put (w (p req.key)) req.key _ _ _).data req.key)
          rw [put_at, ht]
          rfl
        · rw [if_neg hx]
          show _ = Option.map _ ((World.update w (p req.key) (Store.put _ req.key _ _ _) (p x)).data x)
          by_cases h3 : p x = p req.key
          · rw [h3, update_same]
            show _ = Option.map _ ((Store.put (w (p req.key)) req.key _ _ _).data x)
            rw [put_off _ hx]
          · rw [update_other _ _ h3]
    · rw [if_neg h2] at hb
      cases hb

/-! ### the router and the shelf side by side -/

/-- The request `req` a connection's goroutine is in, its call of `ServeRequest`, and the same request
at the ideal router. -/
def Link (H : Hashes) (r : ReplicaPool S) (p q : Bytes → S) (req : Option Request) (task : Option (Proxy.Task S))
    (wait : Option Request) (ready : Option (Res (List Response))) : Prop :=
  match req with
  | none => task = none ∧ wait = none ∧ ready = none
  | some rq => (task = some (begin H r rq) ∧ wait = some rq ∧ ready = none)
      ∨ ∃ o res pr fin, task = some ⟨pr, fin⟩ ∧ wait = none ∧ ready = some (fin res) ∧ Stage H r p q o res pr ∧ ¬ IsArith o

structure Rel (H : Hashes) (r : ReplicaPool S) (p q : Bytes → S) (N : Nat) (d : Desk S) (a : Atomic Shelf)
    (b : Nat → Option Request) : Prop where
  room : d.calls ≤ N
  healthy : Healthy d.world (N - d.calls)
  shelf : a.own = onPrimaries H r a.own.now d.world
  clock : ∀ s, (d.world s).now = a.own.now
  link : ∀ c, Link H r p q (b c) (d.tasks c) (a.waiting c) (a.ready c)

/-- One connection's request changes. -/
def setAt {α : Type} (b : Nat → α) (c : Nat) (x : α) : Nat → α := fun d => if d = c then x else b d

theorem rel_call {H : Hashes} {r : ReplicaPool S} {p q : Bytes → S} {N : Nat} {d : Desk S} {a : Atomic Shelf}
    {b : Nat → Option Request} (h : Rel H r p q N d a b) {c : Nat} (hc : b c = none) (req : Request) :
    Rel H r p q N ((process H r).call d c req) (sharedShelf.call a c req) (setAt b c (some req)) := by
  refine ⟨h.room, h.healthy, h.shelf, h.clock, fun x => ?_⟩
  by_cases hx : x = c
  · subst hx
    have := h.link x
    rw [hc] at this
    simp only [setAt, process, sharedShelf, drifting, if_true, Link]
    exact .inl ⟨trivial, trivial, this.2.2⟩
  · have := h.link x
    simp only [setAt, process, sharedShelf, drifting, if_neg hx]
    exact this

theorem onPrimaries_same {H : Hashes} {r : ReplicaPool S} {p : Bytes → S} (hp : ∀ k, r.primary.pick H k = .ok (p k))
    {w w' : Pool.World S} (h : ∀ k, w' (p k) = w (p k)) (t : Nat) : onPrimaries H r t w' = onPrimaries H r t w := by
  unfold onPrimaries
  simp only [Shelf.mk.injEq, and_true]
  funext k
  rw [hp k]
  simp only [h k]

theorem rel_step {H : Hashes} {r : ReplicaPool S} {p q : Bytes → S} (hp : ∀ k, r.primary.pick H k = .ok (p k))
    (hq : ∀ k, r.secondary.pick H k = .ok (q k)) (hpq : ∀ k k', p k ≠ q k') {N : Nat} {d d' : Desk S} {a : Atomic Shelf}
    {b : Nat → Option Request} (h : Rel H r p q N d a b) (hg : ∀ c req, b c = some req → GoodRequest req)
    (hs : (process H r).step d d') (hN : d'.calls ≤ N) :
    ∃ a', (a' = a ∨ sharedShelf.step a a') ∧ Rel H r p q N d' a' b := by
  rcases hs with ⟨n, rfl⟩ | ⟨c, s, op, f, fin, htask, rfl⟩
  · refine ⟨{ a with own := a.own.tick n }, .inr (.inr ⟨_, ⟨n, rfl⟩, rfl⟩), h.room, healthy_tick h.healthy n, ?_, ?_, h.link⟩
    · show a.own.tick n = onPrimaries H r (a.own.now + n) (World.tick d.world n)
      unfold Shelf.tick
      rw [Shelf.mk.injEq]
      exact ⟨(congrArg Shelf.data h.shelf : _), rfl⟩
    · intro s
      exact congrArg (· + n) (h.clock s)
  · simp only at hN
    have hh : Healthy d.world (N - (d.calls + 1) + 1) := by
      rw [show N - (d.calls + 1) + 1 = N - d.calls by omega]; exact h.healthy
    have hl := h.link c
    rw [htask] at hl
    cases hb : b c with
    | none => rw [hb] at hl; cases hl.1
    | some req =>
      rw [hb] at hl
      rcases hl with ⟨h1, h2, h3⟩ | ⟨o, res, pr, fin', h1, h2, h3, h4, h5⟩
      · obtain ⟨g1, g2, g3, g4, g5, g6⟩ := begin_first hp hq (hg c req hb) (Option.some.inj h1).symm hh h.clock
        rw [← h.shelf] at g3 g4
        have hnow : (shelfAnswer a.own req).2.now = a.own.now := by rw [g4]; rfl
        refine ⟨_, .inr (.inl ⟨c, req, h2, rfl⟩), hN, g5, ?_, ?_, ?_⟩
        · simp only
          rw [hnow]; exact g4
        · simp only
          rw [hnow]; exact g6
        · intro x
          by_cases hx : x = c
          · subst hx
            rw [hb]
            simp only [if_true]
            exact .inr ⟨op, _, _, fin, rfl, rfl, by rw [g3], g1, g2⟩
          · simp only [if_neg hx]
            exact h.link x
      · cases h1
        obtain ⟨g1, g2, g3⟩ := stage_step hpq h4 hh
        refine ⟨a, .inl rfl, hN, g3, ?_, ?_, ?_⟩
        · rw [onPrimaries_same hp g2]; exact h.shelf
        · intro x
          rw [g3.2 x (p []), g2 []]
          exact h.clock _
        · intro x
          by_cases hx : x = c
          · subst hx
            rw [hb]
            simp only [if_true]
            exact .inr ⟨o, res, _, fin, rfl, h2, h3, g1, h5⟩
          · simp only [if_neg hx]
            exact h.link x

theorem rel_ret {H : Hashes} {r : ReplicaPool S} {p q : Bytes → S} (hp : ∀ k, r.primary.pick H k = .ok (p k))
    (hq : ∀ k, r.secondary.pick H k = .ok (q k)) {N : Nat} {d d' : Desk S} {a : Atomic Shelf}
    {b : Nat → Option Request} (h : Rel H r p q N d a b) {c : Nat} {req : Request} (hb : b c = some req)
    (hg : GoodRequest req) {x : Res (List Response)} (hs : (process H r).ret d c x d') :
    ∃ a1 a2, (a1 = a ∨ sharedShelf.step a a1) ∧ sharedShelf.ret a1 c x a2 ∧ Rel H r p q N d' a2 (setAt b c none) := by
  obtain ⟨y, fin, htask, rfl, rfl⟩ := hs
  have hl := h.link c
  rw [htask, hb] at hl
  have others : ∀ (z : Nat), z ≠ c → ∀ (a' : Atomic Shelf), a'.waiting z = a.waiting z → a'.ready z = a.ready z →
      Link H r p q (b z) (d.tasks z) (a'.waiting z) (a'.ready z) := by
    intro z _ a' h1 h2
    rw [h1, h2]; exact h.link z
  rcases hl with ⟨h1, h2, h3⟩ | ⟨o, res, pr, fin', h1, h2, h3, h4, h5⟩
  · -- refused without asking any server
    have hbeg := (Option.some.inj h1).symm
    have hne : req.opcode ≠ opGet ∧ req.opcode ≠ opSet := by
      constructor
      · intro h1
        unfold begin at hbeg
        rw [if_pos h1] at hbeg
        obtain ⟨k, f', _, hprog, _⟩ := stage_first (q := q) (o := .get req.key) hp hq (hg.1 h1)
        rw [hprog] at hbeg
        cases hbeg
      · intro h2
        unfold begin at hbeg
        obtain ⟨o, ho, hc0, hi⟩ := hg.2 h2
        rw [if_neg (by rw [h2]; decide), if_pos h2, ho] at hbeg
        have hi' : CopyOp (.set (itemOf req o)) := by
          refine ⟨?_, hc0⟩
          unfold itemOf
          rw [hc0]
          exact hi
        obtain ⟨k, f', _, hprog, _⟩ := stage_first (q := q) (o := .set (itemOf req o)) hp hq hi'
        simp only at hbeg
        rw [hprog] at hbeg
        cases hbeg
    have hfin : fin y = .err errUnknown := by
      unfold begin at hbeg
      rw [if_neg hne.1, if_neg hne.2] at hbeg
      cases hbeg
      rfl
    have hans : shelfAnswer a.own req = (.err errUnknown, a.own) := by
      unfold shelfAnswer
      rw [if_neg hne.1, if_neg hne.2]
      rfl
    refine ⟨_, _, .inr (.inl ⟨c, req, h2, rfl⟩), ⟨?_, rfl⟩, h.room, h.healthy, ?_, ?_, ?_⟩
    · simp only [if_true, hans, hfin]
    · simp only [hans]; exact h.shelf
    · simp only [hans]; exact h.clock
    · intro z
      by_cases hz : z = c
      · subst hz
        simp only [setAt, if_true, Link]
        exact ⟨trivial, trivial, trivial⟩
      · simp only [setAt, if_neg hz]
        exact h.link z
  · have hy : fin' = fin ∧ pr = .ret y := by cases h1; exact ⟨rfl, rfl⟩
    obtain ⟨rfl, rfl⟩ := hy
    have hres : y = res := by
      cases h4 with
      | ret => rfl
      | missed n ho => exact absurd ho h5
    subst hres
    refine ⟨a, _, .inl rfl, ⟨h3, rfl⟩, h.room, h.healthy, h.shelf, h.clock, ?_⟩
    intro z
    by_cases hz : z = c
    · subst hz
      simp only [setAt, if_true, Link]
      exact ⟨trivial, h2, trivial⟩
    · simp only [setAt, if_neg hz]
      exact h.link z

/-! ### the processes side by side -/

/-- The request the goroutine of a connection is working on. -/
def busyReq {σ : Type} (w : Accept.World σ) (c : Nat) : Option Request :=
  (w.conns c).bind fun k => k.busy.map (·.2)

/-- The same process with another handler state. -/
def lift {σ τ : Type} (w : Accept.World σ) (a : τ) : Accept.World τ := ⟨a, w.conns, w.listening, w.down⟩

theorem busyReq_put {σ : Type} (w : Accept.World σ) (c : Nat) (k : Conn) :
    busyReq (w.put c k) = setAt (busyReq w) c (k.busy.map (·.2)) := by
  funext d
  unfold busyReq setAt Accept.World.put
  simp only
  by_cases hd : d = c
  · rw [if_pos hd, if_pos hd]; rfl
  · rw [if_neg hd, if_neg hd]

theorem busyReq_same {σ : Type} {w : Accept.World σ} {c : Nat} {k k' : Conn} (hk : w.conns c = some k)
    (h : k'.busy = k.busy) : busyReq (w.put c k') = busyReq w := by
  rw [busyReq_put]
  funext d
  unfold setAt
  by_cases hd : d = c
  · subst hd
    rw [if_pos rfl, h]
    unfold busyReq
    rw [hk]; rfl
  · rw [if_neg hd]

theorem busyReq_at {σ : Type} {w : Accept.World σ} {c : Nat} {k : Conn} (hk : w.conns c = some k) :
    busyReq w c = k.busy.map (·.2) := by
  unfold busyReq
  rw [hk]; rfl

/-- Connection `c` has had the request. -/
def Asked {σ : Type} (w : Accept.World σ) (c : Nat) (req : Request) : Prop :=
  ∃ k, w.conns c = some k ∧ req ∈ requests k

theorem asked_of_busy {σ : Type} {w : Accept.World σ} {c : Nat} {req : Request} (h : busyReq w c = some req) :
    Asked w c req := by
  unfold busyReq at h
  cases hk : w.conns c with
  | none => rw [hk] at h; cases h
  | some k =>
    rw [hk] at h
    refine ⟨k, hk, ?_⟩
    unfold requests
    have h' : k.busy.map (·.2) = some req := h
    rw [h']
    simp

theorem asked_put {σ : Type} {w : Accept.World σ} {c : Nat} {k k' : Conn} (hk : w.conns c = some k)
    (h : ∀ req ∈ requests k, req ∈ requests k') {d : Nat} {req : Request} (ha : Asked w d req) :
    Asked (w.put c k') d req := by
  obtain ⟨k0, h0, hm⟩ := ha
  by_cases hd : d = c
  · subst hd
    rw [hk] at h0
    cases h0
    exact ⟨k', put_conns_self _ _ _, h _ hm⟩
  · refine ⟨k0, ?_, hm⟩
    rw [put_conns, if_neg hd]
    exact h0

theorem requests_done {k : Conn} {q : Protocol} {req : Request} {k' : Conn} (hb : k.busy = some (q, req))
    {x : Res (List Response)} (h1 : k'.busy = none) (h2 : k'.done = k.done ++ [(req, x)]) : requests k' = requests k := by
  unfold requests
  rw [h1, h2, hb]
  simp

theorem asked_step {σ : Type} {H : Concurrent σ} {w u : Accept.World σ} {a : Who} (hs : Accept.Step H w a u)
    {d : Nat} {req : Request} (ha : Asked w d req) : Asked u d req := by
  cases hs with
  | accept c up hl new =>
    obtain ⟨k0, h0, hm⟩ := ha
    refine ⟨k0, ?_, hm⟩
    rw [put_conns, if_neg]
    · exact h0
    · intro h; subst h; rw [new] at h0; cases h0
  | acceptFails up hl => exact ha
  | arrive c k bs up hk he => exact asked_put (w := w) (k' := { k with sent := k.sent ++ bs, avail := k.avail ++ bs }) hk (fun _ h => h) ha
  | hangup c k up hk he => exact asked_put (w := w) (k' := { k with eof := true }) hk (fun _ h => h) ha
  | reset c k up hk ho hb => exact asked_put (w := w) (k' := { k with fin := some .lost }) hk (fun _ h => h) ha
  | read c k q rq r up hk ho hb hr =>
    refine asked_put (w := w) (k' := { k with proto := some q, avail := r, busy := some (q, rq) }) hk (fun x h => ?_) ha
    unfold requests at h ⊢
    rw [hb] at h
    simp only [List.mem_append] at h ⊢
    rcases h with h | h
    · exact .inl h
    · simp at h
  | bad c k e r up hk ho hb hr he => exact asked_put (w := w) (k' := { k with fin := some .served }) hk (fun _ h => h) ha
  | crash c k r up hk ho hb hr =>
    exact asked_put (w := w) (k' := { k with fin := some .crashed }) hk (fun _ h => h) ha
  | work s up hs => exact ha
  | answer c k q rq res s b up hk ho hb hs hw =>
    exact asked_put (w := w) (k' := { k with busy := none, done := k.done ++ [(rq, .ok res)], out := k.out ++ b }) hk
      (fun _ h => by rw [requests_done hb rfl rfl]; exact h) ha
  | answerLost c k q rq res s b n up hk ho hb hs hw =>
    exact asked_put (w := w) (k' := { k with busy := none, done := k.done ++ [(rq, .ok res)], out := k.out ++ b.take n, fin := some .lost }) hk
      (fun _ h => by rw [requests_done hb rfl rfl]; exact h) ha
  | refuse c k q rq e s up hk ho hb hs =>
    exact asked_put (w := w) (k' := { k with busy := none, done := k.done ++ [(rq, .err e)], fin := some .served }) hk
      (fun _ h => by rw [requests_done hb rfl rfl]; exact h) ha
  | unwritable c k q rq res e s up hk ho hb hs hw =>
    exact asked_put (w := w) (k' := { k with busy := none, done := k.done ++ [(rq, .ok res)], fin := some .served }) hk
      (fun _ h => by rw [requests_done hb rfl rfl]; exact h) ha
  | handlerCrash c k q rq s up hk ho hb hs =>
    exact asked_put (w := w) (k' := { k with busy := none, done := k.done ++ [(rq, .panic)], fin := some .crashed }) hk
      (fun _ h => by rw [requests_done hb rfl rfl]; exact h) ha
  | writeCrash c k q rq res s up hk ho hb hs hw =>
    exact asked_put (w := w) (k' := { k with busy := none, done := k.done ++ [(rq, .ok res)], fin := some .crashed }) hk
      (fun _ h => by rw [requests_done hb rfl rfl]; exact h) ha

theorem calls_step {H : Hashes} {r : ReplicaPool S} {w u : Accept.World (Desk S)} {a : Who}
    (hs : Accept.Step (process H r) w a u) : w.state.calls ≤ u.state.calls := by
  have hret : ∀ {d d' : Desk S} {c x}, (process H r).ret d c x d' → d.calls ≤ d'.calls := by
    rintro d d' c x ⟨y, fin, _, _, rfl⟩; exact Nat.le_refl _
  cases hs with
  | work s up hs =>
    rcases hs with ⟨n, rfl⟩ | ⟨c, t, op, f, fin, _, rfl⟩
    · exact Nat.le_refl _
    · exact Nat.le_succ _
  | answer c k q rq res s b up hk ho hb hs hw => exact hret hs
  | answerLost c k q rq res s b n up hk ho hb hs hw => exact hret hs
  | refuse c k q rq e s up hk ho hb hs => exact hret hs
  | unwritable c k q rq res e s up hk ho hb hs hw => exact hret hs
  | handlerCrash c k q rq s up hk ho hb hs => exact hret hs
  | writeCrash c k q rq res s up hk ho hb hs hw => exact hret hs
  | _ => exact Nat.le_refl _

/-- The ideal router has done the same so far. -/
def Sim (H : Hashes) (r : ReplicaPool S) (p q : Bytes → S) (N : Nat) (v0 : Accept.World (Atomic Shelf))
    (tr : List (Who × View)) (w : Accept.World (Desk S)) : Prop :=
  ∃ a, Traced sharedShelf v0 tr (lift w a) ∧ Rel H r p q N w.state a (busyReq w)

theorem traced_hidden {v0 : Accept.World (Atomic Shelf)} {tr : List (Who × View)} {σ : Type} {w : Accept.World σ}
    {a a' : Atomic Shelf} (ht : Traced sharedShelf v0 tr (lift w a)) (up : w.down = false)
    (h : a' = a ∨ sharedShelf.step a a') : Traced sharedShelf v0 tr (lift w a') := by
  rcases h with rfl | h
  · exact ht
  · exact .inside _ _ _ ht (.work (lift w a) a' up h)

theorem sim_inside {H : Hashes} {r : ReplicaPool S} {p q : Bytes → S} (hp : ∀ k, r.primary.pick H k = .ok (p k))
    (hq : ∀ k, r.secondary.pick H k = .ok (q k)) (hpq : ∀ k k', p k ≠ q k') {N : Nat}
    {v0 : Accept.World (Atomic Shelf)} {tr : List (Who × View)} {w u : Accept.World (Desk S)}
    (h : Sim H r p q N v0 tr w) (hg : ∀ c req, Asked w c req → GoodRequest req)
    (hs : Accept.Step (process H r) w .handler u) (hN : u.state.calls ≤ N) : Sim H r p q N v0 tr u := by
  obtain ⟨a, ht, hr⟩ := h
  cases hs with
  | work s up hs =>
    obtain ⟨a', h1, h2⟩ := rel_step hp hq hpq hr (fun c req hb => hg c req (asked_of_busy hb)) hs hN
    exact ⟨a', traced_hidden (w := { w with state := s }) ht up h1, h2⟩

theorem sim_event {H : Hashes} {r : ReplicaPool S} {p q : Bytes → S} (hp : ∀ k, r.primary.pick H k = .ok (p k))
    (hq : ∀ k, r.secondary.pick H k = .ok (q k)) {N : Nat}
    {v0 : Accept.World (Atomic Shelf)} {tr : List (Who × View)} {w u : Accept.World (Desk S)} {who : Who}
    (h : Sim H r p q N v0 tr w) (hg : ∀ c req, Asked w c req → GoodRequest req)
    (hs : Accept.Step (process H r) w who u) (hwho : who ≠ .handler) : Sim H r p q N v0 (tr ++ [(who, view u)]) u := by
  obtain ⟨a, ht, hr⟩ := h
  have back : ∀ {c : Nat} {k : Conn} {pr : Protocol} {rq : Request} {x : Res (List Response)} {s : Desk S} (k' : Conn),
      w.down = false → w.conns c = some k → k.busy = some (pr, rq) → k'.busy = none → (process H r).ret w.state c x s →
      ∃ a1 a2, Traced sharedShelf v0 tr (lift w a1) ∧ sharedShelf.ret a1 c x a2
        ∧ Rel H r p q N s a2 (busyReq (w.put c k')) := by
    intro c k pr rq x s k' up hk hb hb' hret
    have hbb : busyReq w c = some rq := by rw [busyReq_at hk, hb]; rfl
    obtain ⟨a1, a2, h1, h2, h3⟩ := rel_ret hp hq hr hbb (hg c rq (asked_of_busy hbb)) hret
    refine ⟨a1, a2, traced_hidden ht up h1, h2, ?_⟩
    rw [busyReq_put, hb']
    exact h3
  cases hs with
  | accept c up hl new =>
    refine ⟨a, .event _ _ _ _ ht (.accept (lift w a) c up hl new) hwho, ?_⟩
    have : busyReq (w.put c .new) = busyReq w := by
      rw [busyReq_put]
      funext d
      unfold setAt
      by_cases hd : d = c
      · subst hd; rw [if_pos rfl]; unfold busyReq; rw [new]; rfl
      · rw [if_neg hd]
    rw [this]; exact hr
  | acceptFails up hl => exact ⟨a, .event _ _ _ _ ht (.acceptFails (lift w a) up hl) hwho, hr⟩
  | arrive c k bs up hk he =>
    exact ⟨a, .event _ _ _ _ ht (.arrive (lift w a) c k bs up hk he) hwho, by rw [busyReq_same (w := w) (k' := { k with sent := k.sent ++ bs, avail := k.avail ++ bs }) hk rfl]; exact hr⟩
  | hangup c k up hk he =>
    exact ⟨a, .event _ _ _ _ ht (.hangup (lift w a) c k up hk he) hwho, by rw [busyReq_same (w := w) (k' := { k with eof := true }) hk rfl]; exact hr⟩
  | reset c k up hk ho hb =>
    exact ⟨a, .event _ _ _ _ ht (.reset (lift w a) c k up hk ho hb) hwho, by rw [busyReq_same (w := w) (k' := { k with fin := some .lost }) hk rfl]; exact hr⟩
  | read c k pr rq rest up hk ho hb hrd =>
    refine ⟨sharedShelf.call a c rq, .event _ _ _ _ ht (.read (lift w a) c k pr rq rest up hk ho hb hrd) hwho, ?_⟩
    have := rel_call hr (c := c) (by rw [busyReq_at hk, hb]; rfl) rq
    have e := busyReq_put w c { k with proto := some pr, avail := rest, busy := some (pr, rq) }
    simp only [Option.map_some] at e
    rw [← e] at this
    exact this
  | bad c k e rest up hk ho hb hrd he =>
    exact ⟨a, .event _ _ _ _ ht (.bad (lift w a) c k e rest up hk ho hb hrd he) hwho, by rw [busyReq_same (w := w) (k' := { k with fin := some .served }) hk rfl]; exact hr⟩
  | crash c k rest up hk ho hb hrd =>
    refine ⟨a, .event _ _ _ _ ht (.crash (lift w a) c k rest up hk ho hb hrd) hwho, ?_⟩
    have e := busyReq_same (w := w) (k' := { k with fin := some .crashed }) hk rfl
    rw [← e] at hr
    exact hr
  | work s up hs => exact absurd rfl hwho
  | answer c k pr rq res s b up hk ho hb hs hw =>
    obtain ⟨a1, a2, h1, h2, h3⟩ := back { k with busy := none, done := k.done ++ [(rq, .ok res)], out := k.out ++ b } up hk hb rfl hs
    exact ⟨a2, .event _ _ _ _ h1 (.answer (lift w a1) c k pr rq res a2 b up hk ho hb h2 hw) hwho, h3⟩
  | answerLost c k pr rq res s b n up hk ho hb hs hw =>
    obtain ⟨a1, a2, h1, h2, h3⟩ := back { k with busy := none, done := k.done ++ [(rq, .ok res)], out := k.out ++ b.take n, fin := some .lost } up hk hb rfl hs
    exact ⟨a2, .event _ _ _ _ h1 (.answerLost (lift w a1) c k pr rq res a2 b n up hk ho hb h2 hw) hwho, h3⟩
  | refuse c k pr rq e s up hk ho hb hs =>
    obtain ⟨a1, a2, h1, h2, h3⟩ := back { k with busy := none, done := k.done ++ [(rq, .err e)], fin := some .served } up hk hb rfl hs
    exact ⟨a2, .event _ _ _ _ h1 (.refuse (lift w a1) c k pr rq e a2 up hk ho hb h2) hwho, h3⟩
  | unwritable c k pr rq res e s up hk ho hb hs hw =>
    obtain ⟨a1, a2, h1, h2, h3⟩ := back { k with busy := none, done := k.done ++ [(rq, .ok res)], fin := some .served } up hk hb rfl hs
    exact ⟨a2, .event _ _ _ _ h1 (.unwritable (lift w a1) c k pr rq res e a2 up hk ho hb h2 hw) hwho, h3⟩
  | handlerCrash c k pr rq s up hk ho hb hs =>
    obtain ⟨a1, a2, h1, h2, h3⟩ := back { k with busy := none, done := k.done ++ [(rq, .panic)], fin := some .crashed } up hk hb rfl hs
    exact ⟨a2, .event _ _ _ _ h1 (.handlerCrash (lift w a1) c k pr rq a2 up hk ho hb h2) hwho, h3⟩
  | writeCrash c k pr rq res s up hk ho hb hs hw =>
    obtain ⟨a1, a2, h1, h2, h3⟩ := back { k with busy := none, done := k.done ++ [(rq, .ok res)], fin := some .crashed } up hk hb rfl hs
    exact ⟨a2, .event _ _ _ _ h1 (.writeCrash (lift w a1) c k pr rq res a2 up hk ho hb h2 hw) hwho, h3⟩

theorem sim_run {H : Hashes} {r : ReplicaPool S} {p q : Bytes → S} (hp : ∀ k, r.primary.pick H k = .ok (p k))
    (hq : ∀ k, r.secondary.pick H k = .ok (q k)) (hpq : ∀ k k', p k ≠ q k') {N : Nat}
    {v0 : Accept.World (Atomic Shelf)} {w0 : Accept.World (Desk S)} (h0 : Sim H r p q N v0 [] w0)
    {tr : List (Who × View)} {w : Accept.World (Desk S)} (ht : Traced (process H r) w0 tr w)
    (hg : ∀ c req, Asked w c req → GoodRequest req) (hN : w.state.calls ≤ N) : Sim H r p q N v0 tr w := by
  induction ht with
  | start => exact h0
  | inside tr v u ht hs ih =>
    have hg' : ∀ c req, Asked v c req → GoodRequest req := fun c req h => hg c req (asked_step hs h)
    exact sim_inside hp hq hpq (ih hg' (Nat.le_trans (calls_step hs) hN)) hg' hs hN
  | event tr v u a ht hs ha ih =>
    have hg' : ∀ c req, Asked v c req → GoodRequest req := fun c req h => hg c req (asked_step hs h)
    exact sim_event hp hq (ih hg' (Nat.le_trans (calls_step hs) hN)) hg' hs ha

/-! ### the theorems -/

/-- The situation of C59: a router over two disjoint rings of servers in good condition, whose clients have
so far sent only requests with arguments memcached accepts; `w0` the servers when it was started, `t` the
time. -/
structure RouterRun (H : Hashes) (name : S → Bytes) (ps qs : List S) (r : ReplicaPool S) (w0 : Pool.World S) (t : Nat)
    (tr : List (Who × View)) (w : Accept.World (Desk S)) : Prop where
  rings : TwoRings H name ps qs r
  run : Traced (process H r) (.init (Desk.init w0)) tr w
  healthy : Healthy w0 w.state.calls
  clock : ∀ s, (w0 s).now = t

/-- C59: nobody outside can tell the router, with its two memcached servers per key, its several calls per
request and any number of clients at once, from a server with one shelf of values on which every request
takes effect in one moment: every history of the router is a history of that server, with the same bytes,
answers and events in the same order, and the shelf is what the primaries hold. -/
theorem C59_atomic {H : Hashes} {name : S → Bytes} {ps qs : List S} {r : ReplicaPool S} {w0 : Pool.World S} {t : Nat}
    {tr : List (Who × View)} {w : Accept.World (Desk S)} (h : RouterRun H name ps qs r w0 t tr w)
    (hg : ∀ c k, w.conns c = some k → ∀ req ∈ requests k, GoodRequest req) :
    ∃ v, Traced sharedShelf (.init (.init (onPrimaries H r t w0))) tr v ∧ view v = view w
      ∧ v.state.own = onPrimaries H r v.state.own.now w.state.world := by
  obtain ⟨p, hp⟩ : ∃ p : Bytes → S, ∀ k, r.primary.pick H k = .ok (p k) := by
    exact ⟨fun k => (h.rings.picks k).choose, fun k => (h.rings.picks k).choose_spec.choose_spec.1⟩
  obtain ⟨q, hq⟩ : ∃ q : Bytes → S, ∀ k, r.secondary.pick H k = .ok (q k) := by
    exact ⟨fun k => (h.rings.picks k).choose_spec.choose, fun k => (h.rings.picks k).choose_spec.choose_spec.2⟩
  have h0 : Sim H r p q w.state.calls (.init (.init (onPrimaries H r t w0))) [] (.init (Desk.init w0)) := by
    refine ⟨.init (onPrimaries H r t w0), .start, Nat.zero_le _, h.healthy, rfl, h.clock, fun c => ?_⟩
    exact ⟨rfl, rfl, rfl⟩
  obtain ⟨a, h1, h2⟩ := sim_run hp hq (fun k k' => h.rings.ne (hp k) (hq k')) h0 h.run
    (fun c req ⟨k, hk, hm⟩ => hg c k hk req hm) (Nat.le_refl _)
  exact ⟨_, h1, rfl, h2.shelf⟩

theorem run_of_traced {σ : Type} {H : Concurrent σ} {w w' : Accept.World σ} {tr : List (Who × View)}
    (h : Traced H w tr w') : Run H w w' := by
  induction h with
  | start => exact .refl
  | inside tr v u ht hs ih => exact .tail _ _ _ ih hs
  | event tr v u a ht hs ha ih => exact .tail _ _ _ ih hs

theorem guarded_drifting {τ : Type} (f : Handler τ) (pass : τ → τ → Prop) : Guarded (drifting f pass) where
  call _ _ _ := rfl
  step := by
    rintro a a' (⟨c, req, h1, rfl⟩ | ⟨t, _, rfl⟩)
    · exact .inl ⟨c, req, _, _, h1, rfl⟩
    · exact .inr ⟨t, rfl⟩
  ret _ _ _ _ h := h

/-- The requests in the order in which they took effect, each with the seconds before it and the shelf it
found. -/
def Chain : Shelf → List (Nat × Nat × Request × Shelf) → Shelf → Prop
  | s0, [], s => ∃ d, s = s0.tick d
  | s0, (_, d, req, s1) :: l, s => s1 = s0.tick d ∧ Chain (shelfAnswer s1 req).2 l s

theorem tick_tick (s : Shelf) (d e : Nat) : (s.tick d).tick e = s.tick (d + e) := by
  unfold Shelf.tick
  simp only [Shelf.mk.injEq, true_and]
  omega

theorem chain_tick {s0 s : Shelf} {l : List (Nat × Nat × Request × Shelf)} (h : Chain s0 l s) (e : Nat) :
    Chain s0 l (s.tick e) := by
  induction l generalizing s0 with
  | nil =>
    obtain ⟨d, rfl⟩ := h
    exact ⟨d + e, tick_tick _ _ _⟩
  | cons x l ih => exact ⟨h.1, ih h.2⟩

theorem tick_zero (s : Shelf) : s.tick 0 = s := rfl

theorem chain_snoc {s0 s : Shelf} {l : List (Nat × Nat × Request × Shelf)} (h : Chain s0 l s) (c : Nat) (req : Request) :
    ∃ d, Chain s0 (l ++ [(c, d, req, s)]) (shelfAnswer s req).2 := by
  induction l generalizing s0 with
  | nil =>
    obtain ⟨d, rfl⟩ := h
    exact ⟨d, rfl, 0, rfl⟩
  | cons x l ih =>
    obtain ⟨d, hd⟩ := ih h.2
    exact ⟨d, h.1, hd⟩

/-- What an entry of a chain leaves in the log. -/
def entry (e : Nat × Nat × Request × Shelf) : Nat × Request × Res (List Response) :=
  (e.1, e.2.2.1, (shelfAnswer e.2.2.2 e.2.2.1).1)

theorem chain_run {s0 : Shelf} {v : Accept.World (Atomic Shelf)} (hr : Run sharedShelf (.init (.init s0)) v) :
    ∃ l, Chain s0 l v.state.own ∧ v.state.log = l.map entry := by
  induction hr with
  | refl => exact ⟨[], ⟨0, rfl⟩, rfl⟩
  | tail v u a _ hs ih =>
    obtain ⟨l, h1, h2⟩ := ih
    have hret : ∀ {c x s}, sharedShelf.ret v.state c x s → ∃ l, Chain s0 l s.own ∧ s.log = l.map entry := by
      rintro c x s ⟨_, rfl⟩; exact ⟨l, h1, h2⟩
    cases hs with
    | work s up hs =>
      rcases hs with ⟨c, req, _, rfl⟩ | ⟨_, ⟨d, rfl⟩, rfl⟩
      · obtain ⟨d, hd⟩ := chain_snoc h1 c req
        refine ⟨_, hd, ?_⟩
        simp only [h2, List.map_append]
        rfl
      · exact ⟨l, chain_tick h1 d, h2⟩
    | answer c k q rq res s b up hk ho hb hs hw => exact hret hs
    | answerLost c k q rq res s b n up hk ho hb hs hw => exact hret hs
    | refuse c k q rq e s up hk ho hb hs => exact hret hs
    | unwritable c k q rq res e s up hk ho hb hs hw => exact hret hs
    | handlerCrash c k q rq s up hk ho hb hs => exact hret hs
    | writeCrash c k q rq res s up hk ho hb hs hw => exact hret hs
    | _ => exact ⟨l, h1, h2⟩

theorem chain_inOrder {s0 s : Shelf} {l : List (Nat × Nat × Request × Shelf)} (h : Chain s0 l s) :
    InOrder s0 ((l.map entry).map (·.2)) := by
  induction l generalizing s0 with
  | nil => trivial
  | cons x l ih =>
    obtain ⟨c, d, req, s1⟩ := x
    obtain ⟨rfl, h2⟩ := h
    exact ⟨d, rfl, ih h2⟩

/-- C59: the requests of all clients together have one order in which their answers are those of one shelf
of values, each client's requests standing in the order in which it sent them: the part of the order that
belongs to a connection is what that connection was answered, plus the request in progress if it has
already taken effect. -/
theorem C59_linear {H : Hashes} {name : S → Bytes} {ps qs : List S} {r : ReplicaPool S} {w0 : Pool.World S} {t : Nat}
    {tr : List (Who × View)} {w : Accept.World (Desk S)} (h : RouterRun H name ps qs r w0 t tr w)
    (hg : ∀ c k, w.conns c = some k → ∀ req ∈ requests k, GoodRequest req) :
    ∃ log : List (Nat × Request × Res (List Response)), InOrder (onPrimaries H r t w0) (log.map (·.2))
      ∧ ∀ c k, w.conns c = some k → k.done <+: (log.filter (fun e => e.1 == c)).map (·.2)
          ∧ (k.busy = none → (log.filter (fun e => e.1 == c)).map (·.2) = k.done) := by
  obtain ⟨v, hv, hvw, _⟩ := C59_atomic h hg
  obtain ⟨l, h1, h2⟩ := chain_run (run_of_traced hv)
  refine ⟨v.state.log, ?_, fun c k hk => ?_⟩
  · rw [h2]; exact chain_inOrder h1
  · refine slot_log (guarded_drifting _ _) (run_of_traced hv) ?_
    rw [show v.conns = w.conns from congrArg View.conns hvw]
    exact hk

/-- C59: the sequence of calls considered here is, without interference, exactly the handler of C46–C53: one
goroutine running alone gives the same answer and leaves the servers in the same state. -/
theorem C59_sequential (H : Hashes) (name : S → Bytes) (r : ReplicaPool S) (w : Pool.World S) (req : Request) :
    router H name r w req
      = ((begin H r req).finish ((begin H r req).prog.alone w).1, ((begin H r req).prog.alone w).2) := by
  unfold begin
  show serveRequest (metaEnv H name) r w req = _
  unfold serveRequest
  by_cases h1 : req.opcode = opGet
  · rw [if_pos h1, if_pos h1]
    have := C45_sequential H name r id w (.get req.key) rfl (fun _ _ h => by cases h)
    rw [this]
    show _ = (afterGet (actOut _ _ w).1, (actOut _ _ w).2)
    unfold actOut
    cases Cluster.get (metaEnv H name) r req.key w with
    | mk x w' => cases x <;> rfl
  · rw [if_neg h1, if_neg h1]
    by_cases h2 : req.opcode = opSet
    · rw [if_pos h2, if_pos h2]
      cases ho : req.setOpt with
      | none => rfl
      | some o =>
        simp only
        have := C45_sequential H name r id w (.set (itemOf req o)) rfl (fun _ _ h => by cases h)
        rw [this]
        show _ = (afterSet (actOut _ _ w).1, (actOut _ _ w).2)
        unfold actOut
        cases Cluster.set (metaEnv H name) r (itemOf req o) w with
        | mk x w' => cases x <;> rfl
    · rw [if_neg h2, if_neg h2]
      rfl

theorem run_trans {σ : Type} {H : Concurrent σ} {u v w : Accept.World σ} (h1 : Run H u v) (h2 : Run H v w) : Run H u w := by
  induction h2 with
  | refl => exact h1
  | tail _ _ _ _ hs ih => exact .tail _ _ _ ih hs

/-- The handler works inside one call, and nothing else happens. -/
theorem finish_alone {H : Hashes} {r : ReplicaPool S} (pr : Prog S) (fin : Res Out → Res (List Response)) (c : Nat)
    (w : Accept.World (Desk S)) (up : w.down = false) (ht : w.state.tasks c = some ⟨pr, fin⟩) :
    ∃ (d : Desk S) (y : Res Out), Run (process H r) w { w with state := d } ∧ d.tasks c = some ⟨.ret y, fin⟩
      ∧ (y, d.world) = pr.alone w.state.world ∧ ∀ c', c' ≠ c → d.tasks c' = w.state.tasks c' := by
  induction pr generalizing w with
  | ret y => exact ⟨w.state, y, .refl, ht, rfl, fun _ _ => rfl⟩
  | call s op f ih =>
    obtain ⟨d1, hd1⟩ : ∃ d1 : Desk S, d1 = { world := (callStep s op w.state.world).2
                                             tasks := fun x => if x = c then some ⟨f (callStep s op w.state.world).1, fin⟩ else w.state.tasks x
                                             calls := w.state.calls + 1 } := ⟨_, rfl⟩
    have hstep : Accept.Step (process H r) w .handler { w with state := d1 } :=
      .work w d1 up (.inr ⟨c, s, op, f, fin, ht, hd1⟩)
    obtain ⟨d, y, h1, h2, h3, h4⟩ := ih (callStep s op w.state.world).1 { w with state := d1 } up
      (by subst hd1; simp)
    refine ⟨d, y, ?_, h2, ?_, fun c' hc' => ?_⟩
    · have hpre : Run (process H r) w { w with state := d1 } := .tail _ _ _ .refl hstep
      exact run_trans hpre h1
    · rw [h3]; subst hd1; rfl
    · rw [h4 c' hc']; subst hd1; simp [hc']

/-- A busy goroutine is inside `ServeRequest`. -/
def Inside (w : Accept.World (Desk S)) : Prop := ∀ c, (busyReq w c).isSome → (w.state.tasks c).isSome

theorem inside_step {H : Hashes} {r : ReplicaPool S} {w u : Accept.World (Desk S)} {a : Who}
    (hs : Accept.Step (process H r) w a u) (h : Inside w) : Inside u := by
  have idle : ∀ {σ : Type} {w : Accept.World σ} {c : Nat} {k' : Conn}, k'.busy = none →
      ∀ d, (busyReq (w.put c k') d).isSome → d ≠ c ∧ (busyReq w d).isSome := by
    intro σ w c k' hb d hd
    rw [busyReq_put] at hd
    unfold setAt at hd
    by_cases hdc : d = c
    · rw [if_pos hdc, hb] at hd; cases hd
    · rw [if_neg hdc] at hd; exact ⟨hdc, hd⟩
  have same : ∀ {c : Nat} {k k' : Conn}, w.conns c = some k → k'.busy = k.busy → Inside (w.put c k') := by
    intro c k k' hk hb d hd
    rw [busyReq_same hk hb] at hd
    exact h d hd
  have ret : ∀ {c : Nat} {k' : Conn} {x : Res (List Response)} {s : Desk S}, k'.busy = none → (process H r).ret w.state c x s →
      ∀ d, (busyReq (w.put c k') d).isSome → (s.tasks d).isSome := by
    rintro c k' x s hb ⟨y, fin, _, _, rfl⟩ d hd
    obtain ⟨h1, h2⟩ := idle hb d hd
    simp only [if_neg h1]
    exact h d h2
  cases hs with
  | accept c up hl new => intro d hd; exact h d (idle rfl d hd).2
  | acceptFails up hl => exact h
  | arrive c k bs up hk he => exact same hk rfl
  | hangup c k up hk he => exact same hk rfl
  | reset c k up hk ho hb => exact same hk rfl
  | bad c k e rest up hk ho hb hrd he => exact same hk rfl
  | crash c k rest up hk ho hb hrd => exact same (k' := { k with fin := some .crashed }) hk rfl
  | read c k q rq rest up hk ho hb hrd =>
    intro d hd
    simp only [process]
    by_cases hdc : d = c
    · rw [if_pos hdc]; rfl
    · rw [if_neg hdc]
      refine h d ?_
      have e : busyReq (w.put c { k with proto := some q, avail := rest, busy := some (q, rq) }) d = busyReq w d := by
        rw [busyReq_put]; unfold setAt; rw [if_neg hdc]
      rw [← e]; exact hd
  | work s up hs =>
    rcases hs with ⟨n, rfl⟩ | ⟨c, t, op, f, fin, ht, rfl⟩
    · exact h
    · intro d hd
      simp only
      by_cases hdc : d = c
      · rw [if_pos hdc]; rfl
      · rw [if_neg hdc]; exact h d hd
  | answer c k q rq res s b up hk ho hb hs hw =>
    exact ret (k' := { k with busy := none, done := k.done ++ [(rq, .ok res)], out := k.out ++ b }) rfl hs
  | answerLost c k q rq res s b n up hk ho hb hs hw =>
    exact ret (k' := { k with busy := none, done := k.done ++ [(rq, .ok res)], out := k.out ++ b.take n, fin := some .lost }) rfl hs
  | refuse c k q rq e s up hk ho hb hs =>
    exact ret (k' := { k with busy := none, done := k.done ++ [(rq, .err e)], fin := some .served }) rfl hs
  | unwritable c k q rq res e s up hk ho hb hs hw =>
    exact ret (k' := { k with busy := none, done := k.done ++ [(rq, .ok res)], fin := some .served }) rfl hs
  | handlerCrash c k q rq s up hk ho hb hs =>
    exact ret (k' := { k with busy := none, done := k.done ++ [(rq, .panic)], fin := some .crashed }) rfl hs
  | writeCrash c k q rq res s up hk ho hb hs hw =>
    exact ret (k' := { k with busy := none, done := k.done ++ [(rq, .ok res)], fin := some .crashed }) rfl hs

/-- C59: no client waits for another: from every state of every router, whatever its servers answer and
however far the other requests have come, a pending request can be finished and answered by its own
goroutine alone. -/
theorem C59_no_waiting {H : Hashes} {r : ReplicaPool S} {w0 : Pool.World S} {w : Accept.World (Desk S)}
    (hr : Run (process H r) (.init (Desk.init w0)) w) (up : w.down = false) {c : Nat} {k : Conn}
    (hk : w.conns c = some k) (ho : k.fin = none) {q : Protocol} {req : Request} (hb : k.busy = some (q, req)) :
    ∃ w' k' x, Run (process H r) w w' ∧ w'.conns c = some k' ∧ k'.done = k.done ++ [(req, x)]
      ∧ (∀ d, d ≠ c → w'.conns d = w.conns d) ∧ ∀ d, d ≠ c → w'.state.tasks d = w.state.tasks d := by
  have hin : ∀ {w : Accept.World (Desk S)}, Run (process H r) (.init (Desk.init w0)) w → Inside w := by
    intro w hr
    induction hr with
    | refl => intro c hc; cases hc
    | tail v u a _ hs ih => exact inside_step hs ih
  have hsome := hin hr c (by rw [busyReq_at hk, hb]; rfl)
  cases ht : w.state.tasks c with
  | none => rw [ht] at hsome; cases hsome
  | some task =>
    obtain ⟨pr, fin⟩ := task
    obtain ⟨d, y, h1, h2, _, h4⟩ := finish_alone (H := H) (r := r) pr fin c w up ht
    obtain ⟨w', k', g1, g2, g3, _, g4⟩ := C56_no_blocking_return (H := process H r) (w := { w with state := d }) up hk ho hb
      (x := fin y) ⟨y, fin, h2, rfl, rfl⟩
    have hfr : ∀ e, e ≠ c → w'.conns e = w.conns e ∧ w'.state.tasks e = w.state.tasks e := by
      intro e he
      refine ⟨?_, ?_⟩
      · cases g1 <;> simp [Accept.World.put, he]
      · rw [← h4 e he]
        rw [g4]
        simp [he]
    exact ⟨w', k', fin y, .tail _ _ _ h1 g1, g2, g3, fun e he => (hfr e he).1, fun e he => (hfr e he).2⟩

end Props
end Verif
