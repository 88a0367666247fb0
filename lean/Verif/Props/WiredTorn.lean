import Verif.Props.WiredDurable
/-!
C87: the theorems.
-/

namespace Verif
namespace Wired
open Kv Spec Mc Pool Cluster Props

variable {S M : Type} [DecidableEq S]

/-- The situation: replica pools over the same two rings in any number of processes, whose goroutines call methods for
one key, without cas tokens; connections may break at any moment. -/
structure TornUse (U : Setup S Op) (H : Hashes) (name : S → Bytes) (ps qs : List S) (r : ReplicaPool S) (p q : Bytes → S)
    (w : World S) (tr : List (Ev Op)) (x : State S) : Prop where
  conns : U.call = fun _ => metaCall
  methods : U.method = replicaProg H r
  rings : TwoRings H name ps qs r
  primary : ∀ k, r.primary.pick H k = .ok (p k)
  secondary : ∀ k, r.secondary.pick H k = .ok (q k)
  run : Run U (State.init w) tr x
  kinds : ∀ i o, Ev.start i o ∈ tr → PlainOp o
  healthy : Healthy w (3 * (Spec.Wired.starts tr).length)

section
variable {U : Setup S Op} {H : Hashes} {name : S → Bytes} {ps qs : List S} {r : ReplicaPool S} {p q : Bytes → S}
    {w : World S} {tr : List (Ev Op)} {x : State S}

theorem TornUse.ne (c : TornUse U H name ps qs r p q w tr x) : ∀ k k', p k ≠ q k' := fun k k' => c.rings.ne (c.primary k) (c.secondary k')

theorem TornUse.torn (c : TornUse U H name ps qs r p q w tr x) {l : List (Deed S Op)} {a : Shaky S}
    (hl : ShakyRun U.call U.method U.proc (Shaky.start w) l a) (hv : Spec.Wired.Upto tr (seenOf l)) :
    ∃ m z, TornRun false p q U.proc (Torn.start w) m z ∧ seenOf m = seenOf l ∧ carriedOut m ≤ carriedOut l ∧ TornRel H r p q 0 a z := by
  have hv := hv.starts
  rw [c.conns, c.methods] at hl
  have hl : AgainRun false (fun _ => metaCall) (replicaProg H r) U.proc (Shaky.start w) l a := again_run hl
  have key : ∃ m z, _ ∧ _ ∧ _ ∧ _ ∧ _ := torn_run c.primary c.secondary c.ne hl (fun i o hm => c.kinds i o (mem_starts.1 (hv.subset hm))) 0
    (torn_start (healthy_mono c.healthy ?_))
  · obtain ⟨m, z, h1, h2, h3, -, h4⟩ := key
    exact ⟨m, z, h1, h2, h3, h4⟩
  have := few_carried hl
  have := hv.length_le
  omega

theorem TornUse.fine (c : TornUse U H name ps qs r p q w tr x) : ∀ l a, ShakyRun U.call U.method U.proc (Shaky.start w) l a →
    Spec.Wired.Upto tr (seenOf l) → NextFine U.call a := by
  intro l a hl hv
  obtain ⟨m, z, -, -, -, g⟩ := c.torn hl hv
  rw [c.conns]
  exact g.fine c.primary c.secondary

theorem TornUse.clients (c : TornUse U H name ps qs r p q w tr x) : Clients U := .inr c.conns

theorem TornUse.shaky (c : TornUse U H name ps qs r p q w tr x) :
    ∃ l a, ShakyRun U.call U.method U.proc (Shaky.start w) l a ∧ seenOf l = tr ∧ carriedOut l = x.calls
      ∧ a.world = x.world ∧ a.prog = x.prog ∧ ∀ c s, a.down c s ↔ (x.line c s).conn.ended = true :=
  C85_refines c.clients c.run fun l a hl hv _ => c.fine l a hl (.inl hv)

/-- **C87**: what all processes see of the methods of replica pools, and what the primaries hold, is what could be if
every method were carried out at one moment between its call and its return by the primary of its key, were it not that
a method may return an error if the connection of its process to the primary, or after a change to the secondary, is
broken, and then it may have been carried out, or be carried out later, at most once, or never. -/
theorem C87_pool (c : TornUse U H name ps qs r p q w tr x) :
    ∃ l z, TornRun false p q U.proc (Torn.start w) l z ∧ seenOf l = tr ∧ (∀ k, z.world (p k) = x.world (p k))
      ∧ (∀ n s, z.broken n s ↔ (x.line n s).conn.ended = true) ∧ ∀ i, z.calls i = none ↔ x.prog i = none := by
  obtain ⟨l, a, h1, h2, h3, h4, h5, h6⟩ := c.shaky
  obtain ⟨m, z, g1, g2, -, g4⟩ := c.torn h1 (.inl (by rw [h2]; exact List.prefix_refl _))
  exact ⟨m, z, g1, g2.trans h2, fun k => by rw [← g4.same k, h4], fun n s => by rw [g4.broken]; exact h6 n s,
    fun i => by rw [← h5]; exact (g4.each i).none_iff⟩

/-- **C87**: no method sends more than three commands, and none is carried out twice. -/
theorem C87_commands (c : TornUse U H name ps qs r p q w tr x) : x.calls ≤ 3 * (Spec.Wired.starts tr).length := by
  obtain ⟨l, a, h1, h2, h3, -⟩ := c.shaky
  rw [c.conns, c.methods] at h1
  have := few_carried (again_run (again := false) h1)
  rw [h2, h3] at this
  exact this

theorem atOnce_not_io (w : World S) (o : Op) : (atOnce p w o).1 ≠ .err .io := by
  unfold atOnce
  split
  · exact Sched.metaApi_not_io _ _
  · simp

/-- A broken connection explains an error of `o`. -/
def Explains (p q : Bytes → S) (o : Op) (broken : S → Prop) : Prop :=
  ∃ k, o.key? = some k ∧ (broken (p k) ∨ (broken (q k) ∧ changing o = true))

theorem Explains.mono {o : Op} {b b' : S → Prop} (h : Explains p q o b) (hb : ∀ s, b s → b' s) : Explains p q o b' := by
  obtain ⟨k, h1, h2⟩ := h
  exact ⟨k, h1, h2.imp (hb _) fun h => ⟨hb _ h.1, h.2⟩⟩

/-- Errors of a goroutine that was in no method at the beginning. -/
theorem torn_errors {again : Bool} {proc : Nat → Nat} {z0 : Torn S} {l : List (Deed S Op)} {z : Torn S} (h : TornRun again p q proc z0 l z)
    {t : Nat} (ht : z0.calls t = none) :
    (∀ o, Spec.Wired.Under (seenOf l) t o → ∃ v, z.calls t = some (o, v))
      ∧ (∀ o, z.calls t = some (o, some (.err .io)) → Explains p q o fun s => z.broken (proc t) s ∨ Deed.mends (proc t) s ∈ l)
      ∧ ∀ o, Spec.Wired.Answered (seenOf l) t o (.err .io) → Explains p q o fun s => z.broken (proc t) s ∨ Deed.mends (proc t) s ∈ l := by
  induction h with
  | nil =>
    refine ⟨fun o hu => ?_, fun _ h => (by rw [ht] at h; cases h), fun o hy => ?_⟩
    · obtain ⟨t1, t2, h, -⟩ := hu
      cases t1 <;> cases h
    · obtain ⟨t1, t2, h, -⟩ := hy
      cases t1 <;> cases h
  | @snoc l d z z' _ hs ih =>
    obtain ⟨h0, h1, h2⟩ := ih
    rw [seenOf_append]
    have more : ∀ {o : Op}, (Explains p q o fun s => z.broken (proc t) s ∨ Deed.mends (proc t) s ∈ l) →
        Explains p q o fun s => z.broken (proc t) s ∨ Deed.mends (proc t) s ∈ l ++ [d] :=
      fun he => he.mono fun s hs => hs.imp id (List.mem_append_left _)
    have upd : ∀ {i : Nat} {o : Op} {u v : Option (Res Out)}, z.calls i = some (o, u) → ∀ o', (∃ v', z.calls t = some (o', v')) →
        ∃ v', (if t = i then some (o, v) else z.calls t) = some (o', v') := by
      intro i o u v hi o' ⟨v', hj⟩
      by_cases e : t = i
      · subst e
        rw [hi] at hj
        injection hj with hj
        injection hj with e1 e2
        subst e1
        exact ⟨v, if_pos rfl⟩
      · exact ⟨v', by rw [if_neg e]; exact hj⟩
    have upd1 : ∀ {i : Nat} {o : Op} {v : Option (Res Out)}, (v = some (.err .io) → Explains p q o (z.broken (proc i))) →
        ∀ o', (if t = i then some (o, v) else z.calls t) = some (o', some (.err .io)) →
          Explains p q o' fun s => z.broken (proc t) s ∨ Deed.mends (proc t) s ∈ l ++ [d] := by
      intro i o v hv o' hj
      by_cases e : t = i
      · subst e
        rw [if_pos rfl] at hj
        injection hj with hj
        injection hj with e1 e2
        subst e1
        exact (hv e2).mono fun s => .inl
      · rw [if_neg e] at hj; exact more (h1 o' hj)
    cases hs with
    | tick d =>
      refine ⟨fun o hu => ?_, fun o ho => more (h1 o ho), fun o hy => ?_⟩
      · rcases under_snoc hu with e | ⟨hu, -⟩
        · cases e
        · exact h0 o hu
      · rcases answered_snoc hy with ⟨e, -⟩ | hy
        · cases e
        · exact more (h2 o hy)
    | start i o g1 =>
      refine ⟨fun o' hu => ?_, upd1 (by simp), fun o' hy => ?_⟩
      · rcases under_snoc hu with e | ⟨hu, -⟩
        · injection e with e1 e2
          subst e1 e2
          exact ⟨none, if_pos rfl⟩
        · obtain ⟨v, hv⟩ := h0 o' hu
          refine ⟨v, ?_⟩
          show (if t = i then _ else z.calls t) = _
          rw [if_neg (by rintro rfl; rw [g1] at hv; cases hv)]
          exact hv
      · rcases answered_snoc hy with ⟨e, -⟩ | hy
        · cases e
        · exact more (h2 o' hy)
    | finish i o y g1 =>
      refine ⟨fun o' hu => ?_, fun o' hj => ?_, fun o' hy => ?_⟩
      · rcases under_snoc hu with e | ⟨hu, hn⟩
        · cases e
        · obtain ⟨v, hv⟩ := h0 o' hu
          refine ⟨v, ?_⟩
          show (if t = i then none else z.calls t) = _
          rw [if_neg (by rintro rfl; exact hn _ rfl)]
          exact hv
      · have hj : (if t = i then none else z.calls t) = some (o', some (.err .io)) := hj
        by_cases e : t = i
        · rw [if_pos e] at hj; cases hj
        · rw [if_neg e] at hj; exact more (h1 o' hj)
      · rcases answered_snoc hy with ⟨e, hu⟩ | hy
        · injection e with e1 e2
          subst e1 e2
          obtain ⟨v, hv⟩ := h0 o' hu
          rw [g1] at hv
          injection hv with hv
          injection hv with e1 e2
          subst e1
          exact more (h1 _ g1)
        · exact more (h2 o' hy)
    | breaks n s =>
      rw [show seenOf [Deed.breaks (M := Op) n s] = [] from rfl, List.append_nil]
      have up : ∀ {o : Op}, (Explains p q o fun s => z.broken (proc t) s ∨ Deed.mends (proc t) s ∈ l) →
          Explains p q o fun s' => (z.broken (proc t) s' ∨ proc t = n ∧ s' = s) ∨ Deed.mends (proc t) s' ∈ l ++ [Deed.breaks n s] :=
        fun e => (more e).mono fun s hs => hs.imp .inl id
      exact ⟨h0, fun o hi => up (h1 o hi), fun o hi => up (h2 o hi)⟩
    | mends n s hag hb =>
      rw [show seenOf [Deed.mends (M := Op) n s] = [] from rfl, List.append_nil]
      have up : ∀ {o : Op}, (Explains p q o fun s => z.broken (proc t) s ∨ Deed.mends (proc t) s ∈ l) →
          Explains p q o fun s' => (z.broken (proc t) s' ∧ ¬ (proc t = n ∧ s' = s)) ∨ Deed.mends (proc t) s' ∈ l ++ [Deed.mends n s] := by
        refine fun e => (more e).mono fun s' hs => ?_
        by_cases hc : proc t = n ∧ s' = s
        · rw [← hc.1, ← hc.2]; exact .inr (List.mem_append_right _ (.head _))
        · exact hs.imp (fun hs => ⟨hs, hc⟩) id
      exact ⟨h0, fun o hi => up (h1 o hi), fun o hi => up (h2 o hi)⟩
    | run i o g1 =>
      rw [show seenOf [Deed.run (S := S) (M := Op) i] = [] from rfl, List.append_nil]
      exact ⟨fun o' hu => upd g1 o' (h0 o' hu), upd1 (fun e => by injection e with e; exact absurd e (atOnce_not_io _ _)), fun o hy => more (h2 o hy)⟩
    | lose i o k res g1 g2 g3 =>
      rw [show seenOf [Deed.lose (S := S) (M := Op) i] = [] from rfl, List.append_nil]
      exact ⟨fun o' hu => upd g1 o' (h0 o' hu), upd1 (fun _ => ⟨k, g2, g3.imp id fun e => ⟨e.1, e.2.1⟩⟩), fun o hy => more (h2 o hy)⟩
    | misses i o k n g1 g2 g3 g4 =>
      rw [show seenOf [Deed.lose (S := S) (M := Op) i] = [] from rfl, List.append_nil]
      exact ⟨fun o' hu => upd g1 o' (h0 o' hu), upd1 (fun e => by cases e), fun o hy => more (h2 o hy)⟩
    | fail i o k g1 g2 g3 =>
      rw [show seenOf [Deed.fail (S := S) (M := Op) i] = [] from rfl, List.append_nil]
      exact ⟨fun o' hu => upd g1 o' (h0 o' hu), upd1 (fun _ => ⟨k, g2, .inl g3⟩), fun o hy => more (h2 o hy)⟩
    | late n s o l1 l2 g1 =>
      rw [show seenOf [Deed.late (S := S) (M := Op) n s] = [] from rfl, List.append_nil]
      exact ⟨h0, fun o hi => more (h1 o hi), fun o hi => more (h2 o hi)⟩

theorem no_mends {proc : Nat → Nat} {z0 z : Torn S} {l : List (Deed S Op)} (h : TornRun false p q proc z0 l z) : ∀ c s, Deed.mends c s ∉ l := by
  induction h with
  | nil => exact fun _ _ h => by cases h
  | snoc _ hs ih =>
    intro c s h
    rcases List.mem_append.1 h with h | h
    · exact ih c s h
    · rw [← List.mem_singleton.1 h] at hs
      cases hs with
      | mends _ _ h => cases h

/-- **C87**: a method returns a connection error only if a connection of its own process is broken: the one to the
primary of its key, or, unless the method is Get, the one to the secondary. -/
theorem C87_error_broken (c : TornUse U H name ps qs r p q w tr x) {i : Nat} {o : Op} (hi : Spec.Wired.Answered tr i o (.err .io)) :
    ∃ k, o.key? = some k ∧ ((x.line (U.proc i) (p k)).conn.ended = true
      ∨ (x.line (U.proc i) (q k)).conn.ended = true ∧ ∀ k', o ≠ .get k') := by
  obtain ⟨l, z, h1, h2, -, h4, -⟩ := C87_pool c
  obtain ⟨-, -, h⟩ := torn_errors h1 (t := i) rfl
  rw [h2] at h
  obtain ⟨k, g1, g2⟩ := (h o hi).mono fun s hs => hs.resolve_right (no_mends h1 _ _)
  refine ⟨k, g1, g2.imp (h4 _ _).1 fun g => ⟨(h4 _ _).1 g.1, ?_⟩⟩
  rintro k' rfl
  cases g.2

/-- **C87**: methods of replica pools return, whatever connections have broken. -/
theorem C87_run_on (c : TornUse U H name ps qs r p q w tr x) :
    (∃ tr' y, TornUse U H name ps qs r p q w (tr ++ tr') y ∧ Spec.Wired.starts tr' = []
        ∧ (∀ n s, (y.line n s).conn.ended = (x.line n s).conn.ended) ∧ Spec.Wired.AllBack y)
      ∧ ¬ ∃ f : Nat → State S, f 0 = x ∧ ∀ n, Spec.Wired.GoesOn U (f n) (f (n + 1)) := by
  refine ⟨?_, C85_finite c.clients c.run c.fine⟩
  obtain ⟨tr', y, h1, h2, h3, h4⟩ := C85_run_on c.clients c.run c.fine
  have hs : Spec.Wired.starts (tr ++ tr') = Spec.Wired.starts tr := by rw [starts_append, h2, List.append_nil]
  exact ⟨tr', y, ⟨c.conns, c.methods, c.rings, c.primary, c.secondary, c.run.trans h1,
    fun i o hm => c.kinds i o (mem_starts.1 (by rw [← hs]; exact mem_starts.2 hm)), by rw [hs]; exact c.healthy⟩, h2, h3, h4⟩

/-! ### Both copies -/

theorem find_frame {k : Bytes} {st st' : Store} (h1 : st'.data k = st.data k) (h2 : st'.now = st.now) : st'.find k = st.find k := by
  unfold Store.find; rw [h1, h2]

theorem find_tick {k : Bytes} {st : Store} {d : Nat} :
    (∀ e, st.find k = some e → e.expiry = none → (st.tick d).find k = some e) ∧ (st.find k = none → (st.tick d).find k = none) := by
  have hd : (st.tick d).data k = st.data k := rfl
  have hn : (st.tick d).now = st.now + d := rfl
  unfold Store.find
  rw [hd, hn]
  cases st.data k with
  | none => exact ⟨fun _ h => (by cases h), fun _ => rfl⟩
  | some e =>
    simp only
    refine ⟨fun e' h hx => ?_, fun h => ?_⟩
    · by_cases hl : e.live st.now = true
      · rw [if_pos hl] at h
        injection h with h
        subst h
        simp [Entry.live, hx]
      · rw [if_neg hl] at h; cases h
    · by_cases hl : e.live st.now = true
      · rw [if_pos hl] at h; cases h
      · have hl' : ¬ e.live (st.now + d) = true := by
          intro g
          apply hl
          unfold Entry.live at g ⊢
          cases hx : e.expiry with
          | none => rfl
          | some t =>
            rw [hx] at g
            simp only [decide_eq_true_eq] at g ⊢
            omega
        rw [if_neg hl']

theorem leaves_find {k : Bytes} {o : Op} {st st' : Store} (h : st'.find k = st.find k) (hl : LeavesBehind k o st) : LeavesBehind k o st' := by
  unfold LeavesBehind at hl ⊢
  rwa [h]

theorem leaves_tick {k : Bytes} {o : Op} {st : Store} (d : Nat) (hl : LeavesBehind k o st) : LeavesBehind k o (st.tick d) := by
  rcases hl with ⟨it, e, h1, h2, h3, h4, h5⟩ | ⟨h1, h2⟩
  · exact .inl ⟨it, e, h1, find_tick.1 e h2 h5, h3, h4, h5⟩
  · exact .inr ⟨h1, find_tick.2 h2⟩

theorem put_find (st : Store) (k v : Bytes) (f : Nat) : (st.put k v f none).find k = some ⟨v, f, none, st.nextCas⟩ :=
  find_forever (put_at _ _ _ _ _) rfl

theorem delete_find (st : Store) (k : Bytes) : (st.delete k).2.find k = none := by
  unfold Store.delete
  cases h : st.find k with
  | none => exact h
  | some e =>
    show (st.write k none).find k = none
    unfold Store.find
    rw [write_at]

theorem works1 {k : Bytes} {tr : List (Ev Op)} (hk : ∀ i o, Ev.start i o ∈ tr → PlainOp o)
    (ho : ∀ i o, Ev.start i o ∈ tr → o.key? = some k → changing o = true → KeepsOrDrops k o) :
    Works1 k (fun o => ∃ i, Ev.start i o ∈ tr) (Spec.Wired.ByCall tr k) := by
  have stores : ∀ {o : Op} {it : Item}, PlainOp o → o.key? = some k → stored? o = some it → it.expiration = 0 →
      it.key = k ∧ GoodMetaItem it ∧ it.cas = 0 ∧ ∀ st, (LeavesBehind k o (metaApi st (.set it)).2)
      ∧ ((Fine (metaApi st o).1 ∧ LeavesBehind k o (metaApi st o).2) ∨ (¬ Fine (metaApi st o).1 ∧ (metaApi st o).2 = st)) := by
    intro o it hp hkey hs hx
    have nofine : ∀ e, ¬ Fine (.err e) := fun e ⟨y, h⟩ => by cases h
    have hset : ∀ st, it.cas = 0 → metaApi st (.set it) = (.ok .done, st.put it.key it.value (metaFlagsOf it) none) := by
      intro st h0
      have : st.store (if 0 < it.cas then .cas it.cas else .set) it.key it.value (metaFlagsOf it) it.expiration
          = (.stored, st.put it.key it.value (metaFlagsOf it) none) := by
        rw [h0, hx]
        unfold Store.store
        simp [expiryOf]
      simp only [metaApi, this]
    have left : ∀ (st : Store) f, f = metaFlagsOf it → it.key = k → LeavesBehind k o (st.put it.key it.value f none) := fun st f hf hk =>
      .inl ⟨it, _, hs, by rw [hk]; exact put_find _ _ _ _, rfl, hf, rfl⟩
    cases o with
    | set i =>
      injection hs with hs
      subst hs
      have hk : i.key = k := by injection hkey
      refine ⟨hk, hp.1, hp.2, fun st => ?_⟩
      rw [hset st hp.2]
      exact ⟨left st _ rfl hk, .inl ⟨⟨_, rfl⟩, left st _ rfl hk⟩⟩
    | add i =>
      injection hs with hs
      subst hs
      have hk : i.key = k := by injection hkey
      refine ⟨hk, hp.1, hp.2, fun st => ⟨by rw [hset st hp.2]; exact left st _ rfl hk, ?_⟩⟩
      simp only [metaApi, Store.store, hx]
      cases st.find i.key with
      | none => exact .inl ⟨⟨_, rfl⟩, by simpa [expiryOf] using left st _ (flags_agree hp.1) hk⟩
      | some e => exact .inr ⟨nofine _, rfl⟩
    | replace i =>
      injection hs with hs
      subst hs
      have hk : i.key = k := by injection hkey
      refine ⟨hk, hp.1, hp.2, fun st => ⟨by rw [hset st hp.2]; exact left st _ rfl hk, ?_⟩⟩
      simp only [metaApi, Store.store, hx]
      cases st.find i.key with
      | some e => exact .inl ⟨⟨_, rfl⟩, by simpa [expiryOf] using left st _ (flags_agree hp.1) hk⟩
      | none => exact .inr ⟨nofine _, rfl⟩
    | _ => cases hs
  refine ⟨⟨fun st d => ?_, fun st st' h1 h2 => ?_⟩, fun o hG ha st => ?_, fun o o2 hG ha hc st => ?_, fun o hG ha har => ?_⟩
  · rintro ⟨i, o, h1, h2, h3, h4⟩
    exact ⟨i, o, h1, h2, h3, leaves_tick d h4⟩
  · rintro ⟨i, o, g1, g2, g3, g4⟩
    exact ⟨i, o, g1, g2, g3, leaves_find (find_frame h1 h2) g4⟩
  · obtain ⟨i, hi⟩ := hG
    rcases ho i o hi ha.1 ha.2 with ⟨it, h1, h2⟩ | rfl
    · obtain ⟨-, -, -, h⟩ := stores (hk i o hi) ha.1 h1 h2
      exact (h st).2.imp (fun g => ⟨g.1, i, o, hi, ha.1, ha.2, g.2⟩) id
    · exact .inl ⟨⟨_, rfl⟩, i, _, hi, rfl, rfl, .inr ⟨rfl, delete_find st k⟩⟩
  · obtain ⟨i, hi⟩ := hG
    rcases ho i o hi ha.1 ha.2 with ⟨it, h1, h2⟩ | rfl
    · obtain ⟨-, -, -, h⟩ := stores (hk i o hi) ha.1 h1 h2
      rcases hc with ⟨it', e1, -, rfl⟩ | ⟨rfl, -⟩
      · rw [h1] at e1
        injection e1 with e1
        subst e1
        exact ⟨i, o, hi, ha.1, ha.2, (h st).1⟩
      · cases h1
    · rcases hc with ⟨it', e1, -⟩ | ⟨-, rfl⟩
      · cases e1
      · exact ⟨i, _, hi, rfl, rfl, .inr ⟨rfl, delete_find st k⟩⟩
  · obtain ⟨i, hi⟩ := hG
    rcases ho i o hi ha.1 ha.2 with ⟨it, h1, h2⟩ | rfl
    · cases o <;> first | exact har | (cases h1; done)
    · exact har

/-- **C87**: whatever connections break, and whatever is carried out late: on each server key `k` is as it was at the
beginning, or as one of the calls left it; if it was changed on the secondary, it was changed on the primary; and once a
call that changes it has returned without an error, it has been changed on both. -/
theorem C87_durable (c : TornUse U H name ps qs r p q w tr x) {k : Bytes}
    (ho : ∀ i o, Ev.start i o ∈ tr → o.key? = some k → changing o = true → KeepsOrDrops k o) :
    ((x.world (p k)).data k = (w (p k)).data k ∨ Spec.Wired.ByCall tr k (x.world (p k)))
      ∧ ((x.world (q k)).data k = (w (q k)).data k ∨ (Spec.Wired.ByCall tr k (x.world (q k)) ∧ Spec.Wired.ByCall tr k (x.world (p k))))
      ∧ ∀ i o y, Spec.Wired.Answered tr i o (.ok y) → o.key? = some k → changing o = true →
          Spec.Wired.ByCall tr k (x.world (p k)) ∧ Spec.Wired.ByCall tr k (x.world (q k)) := by
  obtain ⟨l, a, h1, h2, h3, h4, -⟩ := c.shaky
  rw [c.conns, c.methods] at h1
  obtain ⟨cur, d⟩ := durable_run (k := k) c.primary c.secondary c.ne (works1 c.kinds ho) (again_run (again := false) h1)
    (fun i o hm => by rw [h2] at hm; have := mem_starts.1 hm; exact ⟨c.kinds i o this, i, this⟩)
    (healthy_mono c.healthy (by have := few_carried (again_run (again := false) h1); rw [h2] at this; omega))
  rw [h2] at d
  rw [← h4]
  exact ⟨d.pair.primary, d.pair.secondary, fun i o y hy g1 g2 => d.answered i o y hy ⟨g1, g2⟩⟩

/-- **C87**: in particular, if one call only changes key `k`: each server holds what it held or what the call left, the
secondary the latter only if the primary does; and if the call returned without an error, both hold what it left. -/
theorem C87_sole_writer (c : TornUse U H name ps qs r p q w tr x) {k : Bytes} {o : Op} (hko : KeepsOrDrops k o)
    (ho : ∀ j o', Ev.start j o' ∈ tr → o'.key? = some k → changing o' = true → o' = o) :
    ((x.world (p k)).data k = (w (p k)).data k ∨ LeavesBehind k o (x.world (p k)))
      ∧ ((x.world (q k)).data k = (w (q k)).data k ∨ (LeavesBehind k o (x.world (q k)) ∧ LeavesBehind k o (x.world (p k))))
      ∧ ∀ i y, Spec.Wired.Answered tr i o (.ok y) → o.key? = some k → changing o = true →
          LeavesBehind k o (x.world (p k)) ∧ LeavesBehind k o (x.world (q k)) := by
  have one : ∀ {st}, Spec.Wired.ByCall tr k st → LeavesBehind k o st := by
    rintro st ⟨i, o', h1, h2, h3, h4⟩
    rwa [ho i o' h1 h2 h3] at h4
  obtain ⟨h1, h2, h3⟩ := C87_durable c (k := k) fun i o' g1 g2 g3 => by rw [ho i o' g1 g2 g3]; exact hko
  exact ⟨h1.imp id one, h2.imp id fun h => ⟨one h.1, one h.2⟩, fun i y g1 g2 g3 => ⟨one (h3 i o y g1 g2 g3).1, one (h3 i o y g1 g2 g3).2⟩⟩

end
end Wired
end Verif
