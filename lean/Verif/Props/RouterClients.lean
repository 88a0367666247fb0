import Verif.Props.RouterLinear
/-!
C59: what the clients of a router, any number of them at once, get.
-/

namespace Verif
namespace Props
open Srv Spec Accept Pool Cluster Kv Mc Proxy

variable {S : Type} [DecidableEq S]

/-! ### one call -/

/-- The request a call arrives as. -/
def useReq : Use → Request
  | .textSet i => storeReq opSet i
  | .metaGet k => metaGetReq k
  | .metaSet i => metaSetReq i
  | .binGet _ k => { opcode := opGet, key := k }
  | .binSet _ i => binReq i

/-- Values memcached accepts. -/
def Small (s : Shelf) : Prop := ∀ k v x, s.data k = some (v, x) → v.length ≤ maxValue

theorem small_value {s : Shelf} (h : Small s) (k : Bytes) : ((s.value k).getD []).length ≤ maxValue := by
  unfold Shelf.value
  cases hd : s.data k with
  | none => exact Nat.zero_le _
  | some e =>
    obtain ⟨v, x⟩ := e
    simp only
    split
    · exact h k v x hd
    · exact Nat.zero_le _

theorem small_tick {s : Shelf} (h : Small s) (d : Nat) : Small (s.tick d) := h

theorem small_put {s : Shelf} (h : Small s) {k v : Bytes} (hv : v.length ≤ maxValue) (e : Int) : Small (s.put k v e) := by
  intro k' v' x' hd
  unfold Shelf.put at hd
  simp only at hd
  split at hd
  · cases hd; exact hv
  · exact h k' v' x' hd

theorem answers_map {α β : Type} {p : Protocol} {req : Request} {res : List Response} {c : Call α} {x : Res α}
    (h : Answers p req res c x) (f : α → β) : Answers p req res (c.map f) (x.map f) := by
  obtain ⟨b, hb, hrd⟩ := h
  refine ⟨b, hb, fun later => ?_⟩
  show ((c.rd _).1.map f, (c.rd _).2) = _
  rw [hrd]

theorem binReq_eq {i : Item} (hg : GoodMetaItem i) (h0 : 0 ≤ i.expiration) : binStoreReq opSet i = binReq i := by
  have hx : i.expiration % 2 ^ 32 = i.expiration := by
    have := hg.good.exp
    unfold InRange at this
    exact Int.emod_eq_of_lt h0 (by omega)
  unfold binStoreReq binReq
  rw [hx]

theorem use_arrives (u : Use) (hu : u.Good) : Arrives u.protocol u.call (useReq u) := by
  cases u with
  | textSet i => exact C11_set i (goodMeta_text hu.1) hu.2
  | metaGet k => exact C12_get k (key_plain hu)
  | metaSet i => exact C12_set i (goodMeta_meta hu.1)
  | binGet h k => have := hu.2; exact C10_get h k (by omega)
  | binSet h i =>
    have := C10_set h i (goodMeta_bin hu.1)
    rw [binReq_eq hu.1 hu.2] at this
    exact this

theorem use_request (u : Use) (hu : u.Good) : GoodRequest (useReq u) := by
  cases u with
  | textSet i =>
    refine ⟨fun h => (by cases (of_decide_eq_true rfl : ¬ opSet = opGet) h), fun _ => ⟨{ expiration := i.expiration }, rfl, rfl, ?_⟩⟩
    exact good_plain hu.1 _ (fun f hf => by cases hf; exact good_flagBytes hu.1)
  | metaGet k =>
    exact ⟨fun _ => hu, fun h => (by cases (of_decide_eq_true rfl : ¬ opGet = opSet) h)⟩
  | metaSet i =>
    refine ⟨fun h => (by cases (of_decide_eq_true rfl : ¬ opSet = opGet) h), fun _ => ?_⟩
    have hso : ∃ o, (metaSetReq i).setOpt = some o ∧ o.expiration = i.expiration ∧ o.casValue = i.cas := ⟨_, rfl, rfl, rfl⟩
    obtain ⟨o, ho, h1, h2⟩ := hso
    refine ⟨o, ho, by rw [h2, hu.2], ?_⟩
    rw [h1]
    exact good_plain hu.1 _ (fun f hf => by cases hf)
  | binGet h k =>
    exact ⟨fun _ => hu, fun h => (by cases (of_decide_eq_true rfl : ¬ opGet = opSet) h)⟩
  | binSet h i =>
    refine ⟨fun h => (by cases (of_decide_eq_true rfl : ¬ opSet = opGet) h), fun _ => ⟨{ expiration := i.expiration }, rfl, rfl, ?_⟩⟩
    exact good_plain hu.1 _ (fun f hf => by cases hf; exact good_binFlags hu.1)

/-- What the shelf answers to the request gives the call its outcome. -/
theorem use_answer (u : Use) (hu : u.Good) {s : Shelf} (hs : Small s) :
    ∃ res, (shelfAnswer s (useReq u)).1 = .ok res ∧ Answers u.protocol (useReq u) res u.call (u.outcome s).1
      ∧ (shelfAnswer s (useReq u)).2 = (u.outcome s).2 := by
  have hset : ∀ (rq : Request) (o : SetOpt), rq.opcode = opSet → rq.setOpt = some o →
      shelfAnswer s rq = (.ok [{}], s.put rq.key rq.value o.expiration) := by
    intro rq o h1 h2
    unfold shelfAnswer
    rw [if_neg (by rw [h1]; decide), if_pos h1, h2]
  have hget : ∀ (rq : Request) (k : Bytes), rq.opcode = opGet → rq.key = k →
      (shelfAnswer s rq).2 = s ∧ ((∃ v, s.value k = some v ∧ (shelfAnswer s rq).1 = .ok [{ key := k, value := v }])
        ∨ s.value k = none ∧ (shelfAnswer s rq).1 = .ok [{ error := some .itemNotFound }]) := by
    intro rq k h1 h2
    subst h2
    unfold shelfAnswer
    rw [if_pos h1]
    cases hv : s.value rq.key with
    | none => exact ⟨rfl, .inr ⟨rfl, rfl⟩⟩
    | some v => exact ⟨rfl, .inl ⟨v, rfl, rfl⟩⟩
  have hlen := small_value hs
  unfold maxValue at hlen
  cases u with
  | textSet i =>
    have e := hset (useReq (.textSet i)) { expiration := i.expiration } rfl rfl
    rw [e]
    exact ⟨_, rfl, answers_map (C40_text_set i {} [] rfl) _, rfl⟩
  | metaSet i =>
    have hso : ∃ o, (metaSetReq i).setOpt = some o ∧ o.expiration = i.expiration := ⟨_, rfl, rfl⟩
    obtain ⟨o, ho, h1⟩ := hso
    have e := hset (useReq (.metaSet i)) o rfl ho
    rw [e]
    refine ⟨_, rfl, answers_map (C40_meta_set i {} [] rfl) _, ?_⟩
    rw [h1]; rfl
  | binSet h i =>
    have e := hset (useReq (.binSet h i)) { expiration := i.expiration } rfl rfl
    rw [e]
    have hb := C40_binary_set h i {} [] ⟨rfl, rfl, rfl, rfl⟩
    rw [binReq_eq hu.1 hu.2] at hb
    exact ⟨_, rfl, answers_map hb _, rfl⟩
  | metaGet k =>
    have hv := hlen k
    obtain ⟨e2, ⟨v, h1, e1⟩ | ⟨h1, e1⟩⟩ := hget (useReq (.metaGet k)) k rfl rfl
    · rw [h1] at hv
      refine ⟨_, e1, ?_, e2⟩
      simp only [Use.outcome, h1, Option.getD_some] at hv ⊢
      exact answers_map (C14_get k { key := k, value := v } (Or.inl rfl) (by show v.length < 2 ^ 31; omega)) _
    · refine ⟨_, e1, ?_, e2⟩
      simp only [Use.outcome, h1, Option.getD_none]
      exact answers_map (C14_get k { error := some .itemNotFound } (Or.inl rfl) (by decide)) _
  | binGet h k =>
    have hv := hlen k
    have hl := hu.2
    obtain ⟨e2, ⟨v, h1, e1⟩ | ⟨h1, e1⟩⟩ := hget (useReq (.binGet h k)) k rfl rfl
    · rw [h1] at hv
      refine ⟨_, e1, ?_, e2⟩
      simp only [Use.outcome, h1, Option.getD_some] at hv ⊢
      exact answers_map (C15_get h k { key := k, value := v } ⟨by show 0 < 256; omega,
        by show 0 + k.length < 65536; omega, by show k.length + 0 + v.length < 2 ^ 32; omega⟩) _
    · refine ⟨_, e1, ?_, e2⟩
      simp only [Use.outcome, h1, Option.getD_none]
      exact answers_map (C15_get h k { error := some .itemNotFound } ⟨by decide, by decide, by decide⟩) _

theorem small_outcome (u : Use) (hu : u.Good) {s : Shelf} (hs : Small s) : Small (u.outcome s).2 := by
  cases u with
  | textSet i => exact small_put hs hu.1.good.value _
  | metaSet i => exact small_put hs hu.1.good.value _
  | binSet h i => exact small_put hs hu.1.good.value _
  | metaGet k => exact hs
  | binGet h k => exact hs

/-! ### one client -/

theorem only_sent {p : Protocol} {us : List Use} (hu : ∀ u ∈ us, u.Good ∧ u.protocol = p) {sent : Bytes} (hs : Sent us sent)
    {q : Option Protocol} (hq : q = none ∨ q = some p) {xs : List (Res (List Response))} :
    ∀ rq ∈ (serve replay q xs sent).handled, ∃ u ∈ us, rq = useReq u := by
  induction us generalizing sent q xs with
  | nil =>
    cases hs
    intro rq hrq
    rw [serve_eq] at hrq
    rcases hq with rfl | rfl
    · cases hrq
    · cases p <;> cases hrq
  | cons u us ih =>
    obtain ⟨x, y, hx, hy, rfl⟩ := hs
    obtain ⟨hgood, rfl⟩ := hu u (by simp)
    obtain ⟨wr, hw, hread⟩ := use_arrives u hgood
    rw [hx] at hw
    cases hw
    rw [serve_eq, hread q hq y]
    simp only
    intro rq hrq
    unfold serveStep at hrq
    have tail : ∀ {xs}, rq ∈ (serve replay (some u.protocol) xs y).handled → ∃ u' ∈ u :: us, rq = useReq u' := by
      intro xs h
      obtain ⟨u', h1, h2⟩ := ih (fun a ha => hu a (by simp [ha])) hy (.inr rfl) rq h
      exact ⟨u', by simp [h1], h2⟩
    cases xs with
    | nil =>
      simp only [replay, List.mem_singleton] at hrq
      exact ⟨u, by simp, hrq⟩
    | cons z xs =>
      cases z with
      | err e => simp only [replay, List.mem_singleton] at hrq; exact ⟨u, by simp, hrq⟩
      | panic => simp only [replay, List.mem_singleton] at hrq; exact ⟨u, by simp, hrq⟩
      | ok res =>
        simp only [replay] at hrq
        cases hw : writeResponse u.protocol (useReq u) res with
        | err e => rw [hw] at hrq; simp only [List.mem_singleton] at hrq; exact ⟨u, by simp, hrq⟩
        | panic => rw [hw] at hrq; simp only [List.mem_singleton] at hrq; exact ⟨u, by simp, hrq⟩
        | ok b =>
          rw [hw] at hrq
          simp only [List.mem_cons] at hrq
          rcases hrq with h | h
          · exact ⟨u, by simp, h⟩
          · exact tail h

/-- A client all of whose requests were answered as the shelf answers had exactly its calls carried out ... -/
theorem all_handled {p : Protocol} {us : List Use} (hu : ∀ u ∈ us, u.Good ∧ u.protocol = p) {sent : Bytes} (hs : Sent us sent)
    {q : Option Protocol} (hq : q = none ∨ q = some p) {dn : List (Request × Res (List Response))} {out : Bytes}
    (hserve : serve replay q (dn.map (·.2)) sent = ⟨dn.map (·.1), out, [], .closed⟩)
    (hdn : ∀ e ∈ dn, ∃ s, Small s ∧ e.2 = (shelfAnswer s e.1).1) : dn.map (·.1) = us.map useReq := by
  induction us generalizing sent q dn out with
  | nil =>
    cases hs
    rw [serve_eq] at hserve
    have : dn.map (·.1) = [] := by
      rcases hq with rfl | rfl
      · injection hserve with h; exact h.symm
      · cases p <;> (injection hserve with h; exact h.symm)
    rw [this]; rfl
  | cons u us ih =>
    obtain ⟨x, y, hx, hy, rfl⟩ := hs
    obtain ⟨hgood, rfl⟩ := hu u (by simp)
    obtain ⟨wr, hw, hread⟩ := use_arrives u hgood
    rw [hx] at hw
    cases hw
    rw [serve_eq, hread q hq y] at hserve
    simp only at hserve
    unfold serveStep at hserve
    cases dn with
    | nil => simp only [List.map_nil, replay] at hserve; injection hserve with _ _ _ h; cases h
    | cons e dn =>
      obtain ⟨rq, z⟩ := e
      have hz := hdn (rq, z) (by simp)
      obtain ⟨s, hsm, hz⟩ := hz
      simp only at hz
      have hrq : rq = useReq u := by
        simp only [List.map_cons, replay] at hserve
        cases z with
        | err e => injection hserve with h; injection h with h; exact h.symm
        | panic => injection hserve with h; injection h with h; exact h.symm
        | ok res =>
          simp only at hserve
          cases hw : writeResponse u.protocol (useReq u) res with
          | err e => rw [hw] at hserve; injection hserve with h; injection h with h; exact h.symm
          | panic => rw [hw] at hserve; injection hserve with h; injection h with h; exact h.symm
          | ok b => rw [hw] at hserve; injection hserve with h; injection h with h; exact h.symm
      subst hrq
      obtain ⟨res, h1, ⟨b, hb, _⟩, _⟩ := use_answer u hgood hsm
      rw [h1] at hz
      subst hz
      simp only [List.map_cons, replay, hb] at hserve
      have hs' : serve replay (some u.protocol) (dn.map (·.2)) y = ⟨dn.map (·.1), out.drop b.length, [], .closed⟩ := by
        injection hserve with e1 e2 e3 e4
        cases hd : serve replay (some u.protocol) (dn.map (·.2)) y with
        | mk a1 a2 a3 a4 =>
          rw [hd] at e1 e2 e3 e4
          simp only at e1 e2 e3 e4
          injection e1 with _ e1
          rw [e1, e3, e4, ← e2, List.drop_left]
      rw [List.map_cons, List.map_cons, ih (fun a ha => hu a (by simp [ha])) hy (.inr rfl) hs' (fun e he => hdn e (by simp [he]))]

/-- ... and gets the outcomes. -/
theorem client_reads {p : Protocol} {es : List (Use × Shelf)} (hu : ∀ e ∈ es, e.1.Good ∧ e.1.protocol = p ∧ Small e.2)
    {sent : Bytes} (hs : Sent (es.map (·.1)) sent) {q : Option Protocol} (hq : q = none ∨ q = some p) {out : Bytes}
    (hserve : (serve replay q (es.map fun e => (shelfAnswer e.2 (useReq e.1)).1) sent).out = out) :
    readAll (es.map (·.1)) out = (es.map fun e => (e.1.outcome e.2).1, []) := by
  induction es generalizing sent q out with
  | nil =>
    cases hs
    rw [serve_eq] at hserve
    have : out = [] := by
      rcases hq with rfl | rfl
      · exact hserve.symm
      · cases p <;> exact hserve.symm
    rw [this]; rfl
  | cons e es ih =>
    obtain ⟨u, s⟩ := e
    obtain ⟨x, y, hx, hy, rfl⟩ := hs
    obtain ⟨hgood, rfl, hsm⟩ := hu (u, s) (by simp)
    obtain ⟨wr, hw, hread⟩ := use_arrives u hgood
    rw [hx] at hw
    cases hw
    rw [serve_eq, hread q hq y] at hserve
    simp only at hserve
    unfold serveStep at hserve
    obtain ⟨res, h1, ⟨b, hb, hrd⟩, _⟩ := use_answer u hgood hsm
    simp only [List.map_cons, replay, h1, hb] at hserve
    subst hserve
    simp only [List.map_cons, readAll]
    rw [hrd]
    simp only
    rw [ih (fun a ha => hu a (by simp [ha])) hy (.inr rfl) rfl]

/-! ### all clients -/

/-- Put names on the entries. -/
theorem label (st : List (Nat × Nat × Request × Shelf)) (clients : Nat → List Use)
    (h : ∀ c, (st.filter (fun e => e.1 == c)).map (·.2.2.1) = (clients c).map useReq) :
    ∃ order : List (Nat × Nat × Use × Shelf), order.map (fun e => (e.1, e.2.1, useReq e.2.2.1, e.2.2.2)) = st
      ∧ ∀ c, (order.filter (fun e => e.1 == c)).map (·.2.2.1) = clients c := by
  induction st generalizing clients with
  | nil =>
    refine ⟨[], rfl, fun c => ?_⟩
    have := h c
    simp only [List.filter_nil, List.map_nil] at this ⊢
    exact (List.map_eq_nil_iff.1 this.symm).symm
  | cons e st ih =>
    obtain ⟨c0, d, rq, s⟩ := e
    have h0 := h c0
    simp only [List.filter_cons, beq_self_eq_true, if_true, List.map_cons] at h0
    cases hc : clients c0 with
    | nil => rw [hc] at h0; cases h0
    | cons u us =>
      rw [hc] at h0
      simp only [List.map_cons, List.cons.injEq] at h0
      obtain ⟨hru, hrest⟩ := h0
      obtain ⟨order, h1, h2⟩ := ih (fun c => if c = c0 then us else clients c) (by
        intro c
        by_cases hcc : c = c0
        · subst hcc; simp only [if_true]; exact hrest
        · have := h c
          simp only [List.filter_cons, show (c0 == c) = false by simpa using fun h => hcc h.symm] at this
          simp only [if_neg hcc]
          exact this)
      refine ⟨(c0, d, u, s) :: order, ?_, fun c => ?_⟩
      · simp only [List.map_cons, h1, hru]
      · have := h2 c
        by_cases hcc : c = c0
        · subst hcc
          simp only [if_true] at this
          simp only [List.filter_cons, beq_self_eq_true, if_true, List.map_cons, this, hc]
        · simp only [if_neg hcc] at this
          simp only [List.filter_cons, show (c0 == c) = false by simpa using fun h => hcc h.symm]
          exact this

theorem order_run {order : List (Nat × Nat × Use × Shelf)} (hu : ∀ e ∈ order, e.2.2.1.Good) {s0 s : Shelf} (h0 : Small s0)
    (hc : Chain s0 (order.map fun e => (e.1, e.2.1, useReq e.2.2.1, e.2.2.2)) s) :
    (∀ e ∈ order, Small e.2.2.2)
      ∧ (runUses s0 (order.map fun e => (e.2.1, e.2.2.1))).1 = order.map (fun e => (e.2.2.1.outcome e.2.2.2).1)
      ∧ ∃ d, s = (runUses s0 (order.map fun e => (e.2.1, e.2.2.1))).2.tick d := by
  induction order generalizing s0 with
  | nil => exact ⟨fun e he => (List.not_mem_nil he).elim, rfl, hc⟩
  | cons e order ih =>
    obtain ⟨c, d, u, s1⟩ := e
    obtain ⟨h1, h2⟩ := hc
    simp only at h1
    subst h1
    have hg := hu (c, d, u, s0.tick d) (by simp)
    have hsm : Small (s0.tick d) := small_tick h0 d
    obtain ⟨res, _, _, h3⟩ := use_answer u hg hsm
    rw [h3] at h2
    obtain ⟨i1, i2, i3⟩ := ih (fun e he => hu e (by simp [he])) (small_outcome u hg hsm) h2
    refine ⟨?_, ?_, ?_⟩
    · intro e he
      rcases List.mem_cons.1 he with rfl | he
      · exact hsm
      · exact i1 e he
    · simp only [List.map_cons, runUses, i2]
    · exact i3

theorem chain_small {s0 s : Shelf} (h0 : Small s0) {l : List (Nat × Nat × Request × Shelf)}
    (hg : ∀ e ∈ l, GoodRequest e.2.2.1) (hc : Chain s0 l s) : ∀ e ∈ l, Small e.2.2.2 := by
  induction l generalizing s0 with
  | nil => exact fun e he => (List.not_mem_nil he).elim
  | cons e l ih =>
    obtain ⟨c, d, req, s1⟩ := e
    obtain ⟨h1, h2⟩ := hc
    subst h1
    have hsm : Small (s0.tick d) := small_tick h0 d
    have hnext : Small (shelfAnswer (s0.tick d) req).2 := by
      unfold shelfAnswer
      split
      · split <;> exact hsm
      · split
        · rename_i h1 h2
          obtain ⟨o, ho, _, hi⟩ := (hg (c, d, req, s0.tick d) (by simp)).2 h2
          simp only at ho hi
          rw [ho]
          exact small_put hsm hi.good.value _
        · exact hsm
    intro e he
    rcases List.mem_cons.1 he with rfl | he
    · exact hsm
    · exact ih hnext (fun e he => hg e (by simp [he])) h2 e he

theorem part_eq (c : Nat) (order : List (Nat × Nat × Use × Shelf)) (f : Use → Shelf → Res Out) :
    partOf c (order.map fun e => (e.1, e.2.1, e.2.2.1)) (order.map fun e => f e.2.2.1 e.2.2.2)
      = (order.filter (fun e => e.1 == c)).map (fun e => f e.2.2.1 e.2.2.2) := by
  unfold partOf
  induction order with
  | nil => rfl
  | cons e order ih =>
    simp only [List.map_cons, List.zip_cons_cons, List.filter_cons]
    by_cases h : (e.1 == c) = true
    · rw [if_pos h, if_pos h, List.map_cons, List.map_cons, ih]
    · rw [if_neg h, if_neg h, ih]

theorem settled_serve {σ : Type} {H : Concurrent σ} {s : σ} {w : Accept.World σ} (hr : Run H (.init s) w)
    {c : Nat} {k : Conn} (hk : w.conns c = some k) (h : Settled k) :
    serve replay none (k.done.map (·.2)) k.sent = ⟨k.done.map (·.1), k.out, [], .closed⟩ := by
  rcases h.2 with hf | ⟨hf, hw⟩
  · exact C56_session hr hk hf (gave_replay k.done)
  · exact C56_caught_up hr hk hf h.1 hw (gave_replay k.done)

/-- C59: any number of clients of this module, over any of the three protocols, use a router at once, and
at some moment every call has been answered.  Then all their calls together have one order, in which each
client's calls stand in the order it made them, such that every client reads from its connection exactly
the results its calls have in that order on one shelf of values; and that shelf, in the end, is what the
primaries hold. -/
theorem C59_clients {H : Hashes} {name : S → Bytes} {ps qs : List S} {r : ReplicaPool S} {w0 : Pool.World S} {t : Nat}
    {tr : List (Who × View)} {w : Accept.World (Desk S)} (h : RouterRun H name ps qs r w0 t tr w)
    (clients : Nat → List Use) (protocol : Nat → Protocol)
    (hgood : ∀ c, ∀ u ∈ clients c, u.Good ∧ u.protocol = protocol c)
    (hconn : ∀ c k, w.conns c = some k → Settled k ∧ Sent (clients c) k.sent)
    (hnone : ∀ c, w.conns c = none → clients c = []) :
    ∃ order : List (Nat × Nat × Use),
      (∀ c, (order.filter (fun e => e.1 == c)).map (·.2.2) = clients c)
      ∧ (∀ c k, w.conns c = some k → readAll (clients c) k.out
          = (partOf c order (runUses (onPrimaries H r t w0) (order.map (·.2))).1, []))
      ∧ ∃ d, onPrimaries H r ((runUses (onPrimaries H r t w0) (order.map (·.2))).2.tick d).now w.state.world
          = (runUses (onPrimaries H r t w0) (order.map (·.2))).2.tick d := by
  have hrun := run_of_traced h.run
  have hserve : ∀ {c k}, w.conns c = some k →
      serve replay none (k.done.map (·.2)) k.sent = ⟨k.done.map (·.1), k.out, [], .closed⟩ :=
    fun hk => settled_serve hrun hk (hconn _ _ hk).1
  have hg : ∀ c k, w.conns c = some k → ∀ req ∈ requests k, GoodRequest req := by
    intro c k hk req hreq
    have hb := (hconn c k hk).1.1
    unfold requests at hreq
    rw [hb] at hreq
    simp only [Option.map_none, Option.toList_none, List.append_nil] at hreq
    have := only_sent (hgood c) (hconn c k hk).2 (.inl rfl) (xs := k.done.map (·.2)) req
      (by rw [hserve hk]; exact hreq)
    obtain ⟨u, hu, rfl⟩ := this
    exact use_request u (hgood c u hu).1
  obtain ⟨v, hv, hvw, hown⟩ := C59_atomic h hg
  have hconns : v.conns = w.conns := congrArg View.conns hvw
  obtain ⟨st, h1, h2⟩ := chain_run (run_of_traced hv)
  have hpart : ∀ c, ((st.map entry).filter (fun e => e.1 == c)).map (·.2) = (st.filter (fun e => e.1 == c)).map (fun e => (entry e).2) := by
    intro c
    rw [List.filter_map, List.map_map]
    rfl
  have hslot : ∀ c k, w.conns c = some k → (st.filter (fun e => e.1 == c)).map (fun e => (entry e).2) = k.done := by
    intro c k hk
    have := (slot_log (guarded_drifting _ _) (run_of_traced hv) (hconns ▸ hk)).2 (hconn c k hk).1.1
    rw [h2, hpart] at this
    exact this
  have hempty : ∀ c, w.conns c = none → (st.filter (fun e => e.1 == c)).map (fun e => (entry e).2) = [] := by
    intro c hk
    have := slot_run (guarded_drifting _ _) (run_of_traced hv) c
    rw [hconns, hk] at this
    have := this.2.2
    unfold logOf at this
    rw [h2, hpart] at this
    exact this
  have hstgood : ∀ e ∈ st, GoodRequest e.2.2.1 := by
    intro e he
    have hm : (entry e).2 ∈ (st.filter (fun x => x.1 == e.1)).map (fun e => (entry e).2) :=
      List.mem_map.2 ⟨e, List.mem_filter.2 ⟨he, by simp⟩, rfl⟩
    cases hk : w.conns e.1 with
    | none => rw [hempty _ hk] at hm; cases hm
    | some k =>
      rw [hslot _ _ hk] at hm
      refine hg e.1 k hk _ ?_
      unfold requests
      exact List.mem_append.2 (.inl (List.mem_map.2 ⟨_, hm, rfl⟩))
  have hsmall0 : Small (onPrimaries H r t w0) := by
    intro k v x hd
    unfold onPrimaries at hd
    simp only at hd
    split at hd
    · rename_i p _
      cases he : (w0 p).data k with
      | none => rw [he] at hd; cases hd
      | some e =>
        rw [he] at hd
        cases hd
        exact ((h.healthy.1 p).1.good.entry k e he).2.2.1
    · cases hd
  have hstsmall := chain_small hsmall0 hstgood h1
  have hreqs : ∀ c, (st.filter (fun e => e.1 == c)).map (·.2.2.1) = (clients c).map useReq := by
    intro c
    cases hk : w.conns c with
    | none =>
      rw [hnone c hk]
      exact List.map_eq_nil_iff.2 (List.map_eq_nil_iff.1 (hempty c hk))
    | some k =>
      have := all_handled (hgood c) (hconn c k hk).2 (.inl rfl) (hserve hk) (by
        intro e he
        rw [← hslot c k hk] at he
        obtain ⟨x, hx, rfl⟩ := List.mem_map.1 he
        exact ⟨x.2.2.2, hstsmall x (List.mem_filter.1 hx).1, rfl⟩)
      rw [← this, ← hslot c k hk, List.map_map]
      rfl
  obtain ⟨order, ho1, ho2⟩ := label st clients hreqs
  have hog : ∀ e ∈ order, e.2.2.1.Good := by
    intro e he
    have : e.2.2.1 ∈ clients e.1 := by
      rw [← ho2 e.1]
      exact List.mem_map.2 ⟨e, List.mem_filter.2 ⟨he, by simp⟩, rfl⟩
    exact (hgood _ _ this).1
  rw [← ho1] at h1
  obtain ⟨hsm, hres, d, hend⟩ := order_run hog hsmall0 h1
  have hm : (order.map fun e => (e.1, e.2.1, e.2.2.1)).map (·.2) = order.map fun e => (e.2.1, e.2.2.1) := by
    rw [List.map_map]; rfl
  refine ⟨order.map fun e => (e.1, e.2.1, e.2.2.1), ?_, ?_, d, ?_⟩
  · intro c
    rw [List.filter_map, List.map_map]
    exact ho2 c
  · intro c k hk
    rw [hm, hres, part_eq c order fun u s => (u.outcome s).1]
    have hc := hgood c
    have hsent := (hconn c k hk).2
    have hs := congrArg Session.out (hserve hk)
    rw [← ho2 c] at hsent hc ⊢
    have := client_reads (p := protocol c) (es := (order.filter (fun e => e.1 == c)).map fun e => (e.2.2.1, e.2.2.2))
      (sent := k.sent) (q := none) (out := k.out) ?_ ?_ (.inl rfl) ?_
    · rw [List.map_map, List.map_map] at this
      exact this
    · intro e he
      obtain ⟨x, hx, rfl⟩ := List.mem_map.1 he
      obtain ⟨hx1, hx2⟩ := hc x.2.2.1 (List.mem_map.2 ⟨x, hx, rfl⟩)
      exact ⟨hx1, hx2, hsm x (List.mem_filter.1 hx).1⟩
    · rw [List.map_map]; exact hsent
    · rw [List.map_map]
      have e : (order.filter (fun e => e.1 == c)).map ((fun e => (shelfAnswer e.2 (useReq e.1)).1) ∘ fun e => (e.2.2.1, e.2.2.2))
          = k.done.map (·.2) := by
        rw [← hslot c k hk, ← ho1, List.filter_map, List.map_map, List.map_map]
        rfl
      rw [e]
      exact hs
  · rw [hm, ← hend]
    exact hown.symm

/-! ### an example: two clients at once -/

theorem traced_of_run {σ : Type} {H : Concurrent σ} {w w' : Accept.World σ} (h : Run H w w') : ∃ tr, Traced H w tr w' := by
  induction h with
  | refl => exact ⟨[], .start⟩
  | tail v u a _ hs ih =>
    obtain ⟨tr, ht⟩ := ih
    by_cases ha : a = .handler
    · subst ha; exact ⟨tr, .inside _ _ _ ht hs⟩
    · exact ⟨_, .event _ _ _ _ ht hs ha⟩

/-- A client makes a call on an idle connection, and its request is read. -/
theorem ask {σ : Type} {H : Concurrent σ} {w : Accept.World σ} (up : w.down = false) {c : Nat} {k : Conn}
    (hk : w.conns c = some k) (ho : k.fin = none) (hb : k.busy = none) (hav : k.avail = []) (heof : k.eof = false)
    (u : Use) (hu : u.Good) (hp : k.proto = none ∨ k.proto = some u.protocol) :
    ∃ wire, u.call.wire = .ok wire ∧ Run H w
      { w.put c { k with sent := k.sent ++ wire, avail := [], proto := some u.protocol, busy := some (u.protocol, useReq u) } with
        state := H.call w.state c (useReq u) } := by
  obtain ⟨wire, hw, hread⟩ := use_arrives u hu
  refine ⟨wire, hw, ?_⟩
  have s1 := Accept.Step.arrive (H := H) w c k wire up hk heof
  have s2 := Accept.Step.read (H := H) (w.put c { k with sent := k.sent ++ wire, avail := k.avail ++ wire }) c
    { k with sent := k.sent ++ wire, avail := k.avail ++ wire } u.protocol (useReq u) [] up (put_conns_self _ _ _) ho hb
    (by
      have := hread k.proto hp []
      rw [List.append_nil] at this
      rw [hav]
      exact this)
  have e : (w.put c { k with sent := k.sent ++ wire, avail := k.avail ++ wire }).put c
        { k with sent := k.sent ++ wire, avail := [], proto := some u.protocol, busy := some (u.protocol, useReq u) }
      = w.put c { k with sent := k.sent ++ wire, avail := [], proto := some u.protocol, busy := some (u.protocol, useReq u) } := by
    unfold Accept.World.put
    simp only [Accept.World.mk.injEq, and_true, true_and]
    funext d
    by_cases hd : d = c
    · simp [hd]
    · simp [hd]
  have := Run.tail (H := H) _ _ _ (.tail _ _ _ .refl s1) s2
  rw [e] at this
  exact this

theorem begin_call {H : Hashes} {r : ReplicaPool S} {p q : Bytes → S} (hp : ∀ k, r.primary.pick H k = .ok (p k))
    (hq : ∀ k, r.secondary.pick H k = .ok (q k)) {req : Request} (hg : GoodRequest req)
    (ho : req.opcode = opGet ∨ req.opcode = opSet) : ∃ s op f fin, begin H r req = ⟨.call s op f, fin⟩ := by
  unfold begin
  rcases ho with h | h
  · rw [if_pos h]
    obtain ⟨k, f, _, hprog, _⟩ := stage_first (o := .get req.key) hp hq (hg.1 h)
    rw [hprog]
    exact ⟨_, _, _, _, rfl⟩
  · rw [if_neg (by rw [h]; decide), if_pos h]
    obtain ⟨o, ho, hc0, hi⟩ := hg.2 h
    have hi' : CopyOp (.set (itemOf req o)) := by
      refine ⟨?_, hc0⟩
      unfold itemOf
      rw [hc0]
      exact hi
    rw [ho]
    simp only
    obtain ⟨k, f, _, hprog, _⟩ := stage_first (o := .set (itemOf req o)) hp hq hi'
    rw [hprog]
    exact ⟨_, _, _, _, rfl⟩

/-- The handler makes the next call of a request. -/
theorem work_call {H : Hashes} {r : ReplicaPool S} (w : Accept.World (Desk S)) (up : w.down = false) (c : Nat)
    {s : S} {op : Op} {f : Res Out → Prog S} {fin : Res Out → Res (List Response)}
    (ht : w.state.tasks c = some ⟨.call s op f, fin⟩) :
    ∃ d : Desk S, Run (process H r) w { w with state := d } ∧ d.tasks c = some ⟨f (callStep s op w.state.world).1, fin⟩
      ∧ d.world = (callStep s op w.state.world).2 ∧ d.calls = w.state.calls + 1
      ∧ ∀ c', c' ≠ c → d.tasks c' = w.state.tasks c' := by
  refine ⟨{ world := (callStep s op w.state.world).2
            tasks := fun x => if x = c then some ⟨f (callStep s op w.state.world).1, fin⟩ else w.state.tasks x
            calls := w.state.calls + 1 }, .tail _ _ _ .refl (.work w _ up (.inr ⟨c, s, op, f, fin, ht, rfl⟩)), by simp, rfl, rfl,
    fun c' hc' => by simp [hc']⟩

/-- Its request is carried out without interruption and answered. -/
theorem carried_out {H : Hashes} {name : S → Bytes} {ps qs : List S} {r : ReplicaPool S} (hr : TwoRings H name ps qs r)
    {w : Accept.World (Desk S)} (up : w.down = false) {n : Nat} (hw : Healthy w.state.world (n + 2)) {c : Nat} {k : Conn}
    (hk : w.conns c = some k) (ho : k.fin = none) (u : Use) (hu : u.Good) (hb : k.busy = some (u.protocol, useReq u))
    (ht : w.state.tasks c = some (begin H r (useReq u))) :
    ∃ d res b, Run (process H r) w
        { w.put c { k with busy := none, done := k.done ++ [(useReq u, .ok res)], out := k.out ++ b } with state := d }
      ∧ d.calls ≤ w.state.calls + 2 ∧ Healthy d.world n ∧ ∀ c', c' ≠ c → d.tasks c' = w.state.tasks c' := by
  obtain ⟨p, hp⟩ : ∃ p : Bytes → S, ∀ k, r.primary.pick H k = .ok (p k) := by
    exact ⟨fun k => (hr.picks k).choose, fun k => (hr.picks k).choose_spec.choose_spec.1⟩
  obtain ⟨q, hq⟩ : ∃ q : Bytes → S, ∀ k, r.secondary.pick H k = .ok (q k) := by
    exact ⟨fun k => (hr.picks k).choose_spec.choose, fun k => (hr.picks k).choose_spec.choose_spec.2⟩
  have hg := use_request u hu
  have hop : (useReq u).opcode = opGet ∨ (useReq u).opcode = opSet := by cases u <;> first | exact .inl rfl | exact .inr rfl
  obtain ⟨s, op, f, fin, hbeg⟩ := begin_call hp hq hg hop
  have hclock : ∀ x, (w.state.world x).now = (w.state.world (p [])).now := fun x => hw.2 x _
  obtain ⟨g1, g2, g3, _, g5, _⟩ := begin_first hp hq hg hbeg hw hclock
  rw [hbeg] at ht
  have hsm : Small (onPrimaries H r (w.state.world (p [])).now w.state.world) := by
    intro k v x hd
    unfold onPrimaries at hd
    simp only [hp] at hd
    cases he : (w.state.world (p k)).data k with
    | none => rw [he] at hd; cases hd
    | some e =>
      rw [he] at hd
      cases hd
      exact ((hw.1 (p k)).1.good.entry k e he).2.2.1
  obtain ⟨res, hres, ⟨b, hwr, _⟩, _⟩ := use_answer u hu hsm
  rw [hres] at g3
  obtain ⟨d1, r1, t1, w1, c1, o1⟩ := work_call (H := H) (r := r) w up c ht
  rw [← w1] at g5
  have done : ∀ (d : Desk S), Run (process H r) w { w with state := d } → d.tasks c = some ⟨.ret (callStep s op w.state.world).1, fin⟩ →
      Run (process H r) w
        { w.put c { k with busy := none, done := k.done ++ [(useReq u, .ok res)], out := k.out ++ b } with
          state := { d with tasks := fun z => if z = c then none else d.tasks z } } := by
    intro d hrun htask
    refine .tail _ _ _ hrun (.answer { w with state := d } c k u.protocol (useReq u) res _ b up hk ho hb
      ⟨_, fin, htask, g3.symm, rfl⟩ hwr)
  generalize hpr : f (callStep s op w.state.world).1 = pr at g1 t1
  cases g1 with
  | ret =>
    refine ⟨_, res, b, done d1 r1 t1, by show d1.calls ≤ _; omega, ?_, fun c' hc' => ?_⟩
    · refine ⟨fun x => ⟨(g5.1 x).1, ?_⟩, g5.2⟩
      have := (g5.1 x).2
      show (d1.world x).nextCas + n < _
      omega
    · show (if c' = c then none else d1.tasks c') = _
      rw [if_neg hc']; exact o1 c' hc'
  | copy key o2 hkey hc hf hr' =>
    have hst : Stage H r p q op (callStep s op w.state.world).1 (.call (q key) o2 (andThen outDone fun _ => .ret (.ok .done))) :=
      .copy key o2 hkey hc hf hr'
    obtain ⟨s1, _, s3⟩ := stage_step (fun k k' => hr.ne (hp k) (hq k')) hst g5
    obtain ⟨d2, r2, t2, w2, c2, o2'⟩ := work_call (H := H) (r := r) { w with state := d1 } up c t1
    have hret : ∃ y, andThen outDone (fun _ => Prog.ret (.ok .done)) (callStep (q key) o2 d1.world).1 = Prog.ret (S := S) y := by
      cases (callStep (q key) o2 d1.world).1 with
      | ok x => cases x <;> exact ⟨_, rfl⟩
      | err e => exact ⟨_, rfl⟩
      | panic => exact ⟨_, rfl⟩
    obtain ⟨y, hy⟩ := hret
    rw [hy] at s1
    have hyr : y = (callStep s op w.state.world).1 := by
      cases s1 with
      | ret => rfl
      | missed n ho => exact absurd ho g2
    have t2' : d2.tasks c = some ⟨.ret (callStep s op w.state.world).1, fin⟩ := by
      rw [← hyr]
      exact t2.trans (congrArg some (congrArg (Proxy.Task.mk · fin) hy))
    refine ⟨_, res, b, done d2 (run_trans r1 r2) t2', ?_, ?_, fun c' hc' => ?_⟩
    · show d2.calls ≤ _
      rw [c2]
      show d1.calls + 1 ≤ _
      omega
    · show Healthy d2.world n
      rw [w2]; exact s3
    · show (if c' = c then none else d2.tasks c') = _
      rw [if_neg hc', o2' c' hc']
      exact o1 c' hc'
  | read key hkey m ha hr' => exact absurd ha g2
  | write key m ha hr' item hi => exact absurd ha g2
  | missed m ha hr' => exact absurd ha g2

theorem idle_waiting {k : Conn} {q : Protocol} (hp : k.proto = some q) (hav : k.avail = []) (he : k.eof = false) : Waiting k := by
  refine ⟨he, ?_⟩
  rw [hp, hav]
  cases q <;> rfl

/-- Two clients, one storing over the text protocol, the other reading the same key over the binary
protocol, whose requests overlap: the situation of `C59_clients` (and of `C59_atomic`, `C59_linear`). -/
theorem C59_concrete : ∃ tr w, RouterRun realHashes id [b!"a", b!"b"] [b!"c"] abc empties 1000 tr w
    ∧ (∀ c k, w.conns c = some k → Settled k
        ∧ Sent (if c = 0 then [.textSet hello] else if c = 1 then [.binGet {} b!"x"] else []) k.sent)
    ∧ (∀ c, w.conns c = none ↔ 2 ≤ c) := by
  let H := process realHashes abc
  let w0 : Accept.World (Desk Bytes) := .init (Desk.init empties)
  let w1 := w0.put 0 .new
  let w2 := w1.put 1 .new
  have hr2 : Run H w0 w2 :=
    .tail _ _ _ (.tail _ _ _ .refl (.accept w0 0 rfl rfl rfl)) (.accept w1 1 rfl rfl rfl)
  have hu0 : (Use.textSet hello).Good := ⟨hello_good, rfl⟩
  have hu1 : (Use.binGet {} b!"x").Good := (by decide : Key b!"x")
  obtain ⟨x0, hx0, r3⟩ := ask (H := H) (w := w2) rfl (c := 0) (k := .new) rfl rfl rfl rfl rfl _ hu0 (.inl rfl)
  obtain ⟨w3, hw3⟩ : ∃ w3, w3 = ({ w2.put 0 { Conn.new with sent := [] ++ x0, avail := [], proto := some .ascii, busy := some (.ascii, useReq (.textSet hello)) } with
      state := H.call w2.state 0 (useReq (.textSet hello)) } : Accept.World (Desk Bytes)) := ⟨_, rfl⟩
  have hr3 : Run H w0 w3 := by rw [hw3]; exact run_trans hr2 r3
  have hc31 : w3.conns 1 = some .new := by rw [hw3]; rfl
  obtain ⟨x1, hx1, r4⟩ := ask (H := H) (w := w3) (by rw [hw3]; rfl) (c := 1) (k := .new) hc31 rfl rfl rfl rfl _ hu1 (.inl rfl)
  obtain ⟨w4, hw4⟩ : ∃ w4, w4 = ({ w3.put 1 { Conn.new with sent := [] ++ x1, avail := [], proto := some .binary, busy := some (.binary, useReq (.binGet {} b!"x")) } with
      state := H.call w3.state 1 (useReq (.binGet {} b!"x")) } : Accept.World (Desk Bytes)) := ⟨_, rfl⟩
  have hr4 : Run H w0 w4 := by rw [hw4]; exact run_trans hr3 r4
  have hstate4 : w4.state.world = empties ∧ w4.state.calls = 0 := by rw [hw4, hw3]; exact ⟨rfl, rfl⟩
  have hc41 : w4.conns 1 = some { Conn.new with sent := [] ++ x1, avail := [], proto := some .binary, busy := some (.binary, useReq (.binGet {} b!"x")) } := by
    rw [hw4]; rfl
  have hc40 : w4.conns 0 = some { Conn.new with sent := [] ++ x0, avail := [], proto := some .ascii, busy := some (.ascii, useReq (.textSet hello)) } := by
    rw [hw4, hw3]; rfl
  have hrest4 : ∀ c, 2 ≤ c → w4.conns c = none := by
    intro c hc
    rw [hw4, hw3]
    show (if c = 1 then _ else if c = 0 then _ else if c = 1 then _ else if c = 0 then _ else _) = _
    rw [if_neg (by omega), if_neg (by omega), if_neg (by omega), if_neg (by omega)]
    rfl
  have ht40 : w4.state.tasks 0 = some (begin realHashes abc (useReq (.textSet hello))) := by rw [hw4, hw3]; rfl
  have ht41 : w4.state.tasks 1 = some (begin realHashes abc (useReq (.binGet {} b!"x"))) := by rw [hw4]; rfl
  have hup4 : w4.down = false := by rw [hw4, hw3]; rfl
  clear hw4 r4 hw3 r3 hr3 hc31 hr2
  obtain ⟨d5, res5, b5, r5, c5, h5, o5⟩ := carried_out (n := 100) abc_rings hup4 (by rw [hstate4.1]; exact empties_healthy _ (by decide))
    hc41 rfl (.binGet {} b!"x") hu1 rfl ht41
  obtain ⟨w5, hw5⟩ : ∃ w5, w5 = ({ w4.put 1 { Conn.new with sent := [] ++ x1, avail := [], proto := some .binary, done := [] ++ [(useReq (.binGet {} b!"x"), .ok res5)], out := [] ++ b5 } with
      state := d5 } : Accept.World (Desk Bytes)) := ⟨_, rfl⟩
  have hr5 : Run H w0 w5 := by rw [hw5]; exact run_trans hr4 r5
  have hc50 : w5.conns 0 = w4.conns 0 := by rw [hw5]; rfl
  have hc51 : w5.conns 1 = some { Conn.new with sent := [] ++ x1, avail := [], proto := some .binary, done := [] ++ [(useReq (.binGet {} b!"x"), .ok res5)], out := [] ++ b5 } := by rw [hw5]; rfl
  have hrest5 : ∀ c, 2 ≤ c → w5.conns c = none := by
    intro c hc
    rw [hw5]
    show (if c = 1 then _ else w4.conns c) = _
    rw [if_neg (by omega)]
    exact hrest4 c hc
  have hs5 : w5.state = d5 := by rw [hw5]
  have hup5 : w5.down = false := by rw [hw5]; exact hup4
  clear hw5
  obtain ⟨d6, res6, b6, r6, c6, h6, o6⟩ := carried_out (n := 98) abc_rings hup5 (by rw [hs5]; exact h5)
    (hc50.trans hc40) rfl (.textSet hello) hu0 rfl (by rw [hs5, o5 0 (by decide)]; exact ht40)
  obtain ⟨w6, hw6⟩ : ∃ w6, w6 = ({ w5.put 0 { Conn.new with sent := [] ++ x0, avail := [], proto := some .ascii, done := [] ++ [(useReq (.textSet hello), .ok res6)], out := [] ++ b6 } with
      state := d6 } : Accept.World (Desk Bytes)) := ⟨_, rfl⟩
  have hr6 : Run H w0 w6 := by rw [hw6]; exact run_trans hr5 r6
  have hc61 : w6.conns 1 = w5.conns 1 := by rw [hw6]; rfl
  have hc60 : w6.conns 0 = some { Conn.new with sent := [] ++ x0, avail := [], proto := some .ascii, done := [] ++ [(useReq (.textSet hello), .ok res6)], out := [] ++ b6 } := by rw [hw6]; rfl
  have hrest6 : ∀ c, 2 ≤ c → w6.conns c = none := by
    intro c hc
    rw [hw6]
    show (if c = 0 then _ else w5.conns c) = _
    rw [if_neg (by omega)]
    exact hrest5 c hc
  have hs6 : w6.state.calls ≤ 4 := by
    rw [hw6]
    show d6.calls ≤ 4
    rw [hs5] at c6
    have := hstate4.2
    omega
  clear hw6
  obtain ⟨tr, ht⟩ := traced_of_run hr6
  refine ⟨tr, w6, ⟨abc_rings, ht, empties_healthy _ (Nat.lt_of_le_of_lt hs6 (by decide)), fun _ => rfl⟩, ?_, ?_⟩
  · intro c k hk
    match c, hk with
    | 0, hk =>
      rw [hc60] at hk
      cases hk
      exact ⟨⟨rfl, .inr ⟨rfl, idle_waiting rfl rfl rfl⟩⟩, x0, [], hx0, rfl, by simp⟩
    | 1, hk =>
      rw [hc61, hc51] at hk
      cases hk
      exact ⟨⟨rfl, .inr ⟨rfl, idle_waiting rfl rfl rfl⟩⟩, x1, [], hx1, rfl, by simp⟩
    | n + 2, hk => rw [hrest6 _ (by omega)] at hk; cases hk
  · intro c
    match c with
    | 0 => rw [hc60]; simp
    | 1 => rw [hc61, hc51]; simp
    | n + 2 => rw [hrest6 _ (by omega)]; simp

end Props
end Verif
