import Verif.Props.RewiredUse
import Verif.Props.RewiredFinite
import Verif.Props.WiredRead
/-!
C88: replica pools over connections that break and are replaced by Reconnect.
-/

namespace Verif
namespace Rewired
open Kv Spec Mc Pool Cluster Props
open Wired (Setup Ev Clients AgainStep AgainRun TornRel Alters Fine starts_append starts_prefix mem_starts seenOf_append carriedOut_append)

variable {S M : Type} [DecidableEq S]

/-! ### Numbers of connections forgotten -/

/-- The first `n` lists. -/
def gone (f : Nat → List Op) : Nat → List Op
  | 0 => []
  | n + 1 => gone f n ++ f n

theorem gone_congr {f f' : Nat → List Op} {n : Nat} (h : ∀ g, g < n → f g = f' g) : gone f n = gone f' n := by
  induction n with
  | zero => rfl
  | succ n ih => rw [gone, gone, ih fun g hg => h g (Nat.lt_succ_of_lt hg), h n (Nat.lt_succ_self n)]

theorem gone_split {f : Nat → List Op} {g : Nat} {op : Op} {ops : List Op} (hf : f g = op :: ops) {n : Nat} (hg : g < n) :
    ∃ l1 l2, gone f n = l1 ++ op :: l2 ∧ gone (fun h => if h = g then ops else f h) n = l1 ++ l2 := by
  induction n with
  | zero => exact absurd hg (Nat.not_lt_zero _)
  | succ n ih =>
    by_cases e : g = n
    · subst e
      refine ⟨gone f g, ops, by rw [gone, hf], ?_⟩
      rw [gone, if_pos rfl]
      congr 1
      exact gone_congr fun h hh => if_neg (Nat.ne_of_lt hh)
    · obtain ⟨l1, l2, h1, h2⟩ := ih (by omega)
      refine ⟨l1, l2 ++ f n, by rw [gone, h1, List.append_assoc]; rfl, ?_⟩
      rw [gone, h2, if_neg (by omega), List.append_assoc]

/-- The connections in use, with the calls that failed on any connection. -/
def whole (a : Mended S) : Shaky S := { a.now with pending := fun c s => gone (a.past c s) (a.era c s) ++ a.now.pending c s }

variable {call : S → Op → Call Out} {method : M → Prog S} {proc : Nat → Nat}

theorem again_step {a a' : Mended S} {d : Deed S M} (h : MendedStep call method proc a d a') : AgainStep true call method proc (whole a) d (whole a') := by
  cases h with
  | now _ b hs =>
    cases hs with
    | tick d => exact .now _ _ _ (.tick (whole a) d)
    | start i m h => exact .now _ _ _ (.start (whole a) i m h)
    | finish i r h => exact .now _ _ _ (.finish (whole a) i r h)
    | breaks p s => exact .now _ _ _ (.breaks (whole a) p s)
    | run i s op k h1 h2 => exact .now _ _ _ (.run (whole a) i s op k h1 h2)
    | learn i s op k r h1 h2 => exact .now _ _ _ (.learn (whole a) i s op k r h1 h2)
    | lose i s op k r h1 h2 h3 => exact .now _ _ _ (.lose (whole a) i s op k r h1 h2 h3)
    | fail i s op k h1 h2 h3 =>
      have h := AgainStep.now (again := true) _ _ _ (ShakyStep.fail (call := call) (method := method) (proc := proc) (whole a) i s op k h1 h2 h3)
      refine cast (congrArg (fun z => AgainStep true call method proc (whole a) _ z) ?_) h
      unfold whole
      congr 1
      funext c' s'
      show (if c' = proc i ∧ s' = s then (gone _ _ ++ a.now.pending c' s') ++ [op] else gone _ _ ++ a.now.pending c' s')
        = gone _ _ ++ (if c' = proc i ∧ s' = s then a.now.pending c' s' ++ [op] else a.now.pending c' s')
      by_cases e : c' = proc i ∧ s' = s
      · rw [if_pos e, if_pos e, List.append_assoc]
      · rw [if_neg e, if_neg e]
    | late p s op ops w h1 h2 =>
      have h := AgainStep.late (again := true) (call := call) (method := method) (proc := proc) (whole a) p s (gone (a.past p s) (a.era p s)) op ops w rfl
        (by show gone _ _ ++ a.now.pending p s = _; rw [h1]) h2
      refine cast (congrArg (fun z => AgainStep true call method proc (whole a) _ z) ?_) h
      unfold whole
      congr 1
      funext c' s'
      show (if c' = p ∧ s' = s then gone (a.past p s) (a.era p s) ++ ops else gone _ _ ++ a.now.pending c' s')
        = gone _ _ ++ (if c' = p ∧ s' = s then ops else a.now.pending c' s')
      by_cases e : c' = p ∧ s' = s
      · rw [if_pos e, if_pos e, e.1, e.2]
      · rw [if_neg e, if_neg e]
  | mends p s h1 =>
    have h := AgainStep.mends (again := true) (call := call) (method := method) (proc := proc) (whole a) p s rfl h1
    refine cast (congrArg (fun z => AgainStep true call method proc (whole a) _ z) ?_) h
    unfold whole
    congr 1
    funext c' s'
    show gone (a.past c' s') (a.era c' s') ++ a.now.pending c' s'
      = gone (fun g => if c' = p ∧ s' = s ∧ g = a.era p s then a.now.pending p s else a.past c' s' g) (if c' = p ∧ s' = s then a.era p s + 1 else a.era c' s')
        ++ (if c' = p ∧ s' = s then [] else a.now.pending c' s')
    by_cases e : c' = p ∧ s' = s
    · obtain ⟨rfl, rfl⟩ := e
      rw [if_pos ⟨rfl, rfl⟩, if_pos ⟨rfl, rfl⟩, List.append_nil, gone, if_pos ⟨rfl, rfl, rfl⟩]
      congr 1
      exact gone_congr fun g hg => (if_neg fun e => absurd e.2.2 (Nat.ne_of_lt hg)).symm
    · rw [if_neg e, if_neg e]
      congr 1
      exact gone_congr fun g hg => (if_neg fun h => e ⟨h.1, h.2.1⟩).symm
  | late p s g op ops w h1 h2 h3 =>
    obtain ⟨l1, l2, e1, e2⟩ := gone_split h2 h1
    have h := AgainStep.late (again := true) (call := call) (method := method) (proc := proc) (whole a) p s l1 op (l2 ++ a.now.pending p s) w rfl
      (by show gone _ _ ++ a.now.pending p s = _; rw [e1, List.append_assoc]; rfl) h3
    refine cast (congrArg (fun z => AgainStep true call method proc (whole a) _ z) ?_) h
    unfold whole
    congr 1
    funext c' s'
    show (if c' = p ∧ s' = s then l1 ++ (l2 ++ a.now.pending p s) else gone _ _ ++ a.now.pending c' s')
      = gone (fun h => if c' = p ∧ s' = s ∧ h = g then ops else a.past c' s' h) (a.era c' s') ++ a.now.pending c' s'
    by_cases e : c' = p ∧ s' = s
    · obtain ⟨rfl, rfl⟩ := e
      rw [if_pos ⟨rfl, rfl⟩, ← List.append_assoc, ← e2]
      congr 1
      refine gone_congr fun h _ => ?_
      by_cases e : h = g
      · rw [if_pos e, if_pos ⟨rfl, rfl, e⟩]
      · rw [if_neg e, if_neg fun h => e h.2.2]
    · rw [if_neg e]
      congr 1
      exact gone_congr fun h _ => (if_neg fun h => e ⟨h.1, h.2.1⟩).symm

theorem again_of {a0 a : Mended S} {l : List (Deed S M)} (h : MendedRun call method proc a0 l a) : AgainRun true call method proc (whole a0) l (whole a) := by
  induction h with
  | nil => exact .nil
  | snoc _ hs ih => exact .snoc ih (again_step hs)

theorem whole_start (w : World S) : whole (Mended.start w) = Shaky.start w := rfl

/-- Every replacement counts. -/
theorem mended_era {a0 a : Mended S} {l : List (Deed S M)} (h : MendedRun call method proc a0 l a) :
    (∀ c s, a0.era c s ≤ a.era c s) ∧ ∀ c s, Deed.mends c s ∈ l → a0.era c s < a.era c s := by
  induction h with
  | nil => exact ⟨fun _ _ => Nat.le_refl _, fun _ _ h => by cases h⟩
  | @snoc l d a a' _ hs ih =>
    obtain ⟨h1, h2⟩ := ih
    have same : (∀ c s, a'.era c s = a.era c s) → (∀ c s, d ≠ .mends c s) →
        (∀ c s, a0.era c s ≤ a'.era c s) ∧ ∀ c s, Deed.mends c s ∈ l ++ [d] → a0.era c s < a'.era c s := by
      intro he hd
      refine ⟨fun c s => by rw [he]; exact h1 c s, fun c s h => ?_⟩
      rcases List.mem_append.1 h with h | h
      · rw [he]; exact h2 c s h
      · exact absurd (List.mem_singleton.1 h).symm (hd c s)
    cases hs with
    | now _ b hs => exact same (fun _ _ => rfl) fun c s e => by subst e; cases hs
    | late p s g op ops w => exact same (fun _ _ => rfl) fun c s e => by cases e
    | mends p s hd =>
      have key : ∀ c' s', a.era c' s' ≤ (if c' = p ∧ s' = s then a.era p s + 1 else a.era c' s') := fun c' s' => by
        by_cases e : c' = p ∧ s' = s
        · rw [if_pos e, e.1, e.2]; exact Nat.le_succ _
        · rw [if_neg e]; exact Nat.le_refl _
      refine ⟨fun c' s' => Nat.le_trans (h1 c' s') (key c' s'), fun c' s' h => ?_⟩
      rcases List.mem_append.1 h with h | h
      · exact Nat.lt_of_lt_of_le (h2 c' s' h) (key c' s')
      · have h := List.mem_singleton.1 h
        injection h with e1 e2
        subst e1 e2
        show _ < (if c' = c' ∧ s' = s' then _ else _)
        rw [if_pos ⟨rfl, rfl⟩]
        exact Nat.lt_succ_of_le (h1 c' s')

/-! ### Replica pools -/

/-- The situation: replica pools over the same two rings in any number of processes, whose goroutines call methods for
one key, without cas tokens; connections may break at any moment, and everybody may call Reconnect at any moment. -/
structure RetornUse (U : Setup S Op) (H : Hashes) (name : S → Bytes) (ps qs : List S) (r : ReplicaPool S) (p q : Bytes → S)
    (w : World S) (tr : List (Ev Op)) (x : State S) : Prop where
  conns : U.call = fun _ => metaCall
  methods : U.method = replicaProg H r
  rings : TwoRings H name ps qs r
  primary : ∀ k, r.primary.pick H k = .ok (p k)
  secondary : ∀ k, r.secondary.pick H k = .ok (q k)
  run : Run U (State.init w) tr x
  kinds : ∀ i o, Ev.start i o ∈ tr → PlainOp o
  healthy : Healthy w (3 * (Spec.Wired.starts tr).length)

section
variable {U : Setup S Op} {H : Hashes} {name : S → Bytes} {ps qs : List S} {r : ReplicaPool S} {p q : Bytes → S}
    {w : World S} {tr : List (Ev Op)} {x : State S}

theorem RetornUse.ne (c : RetornUse U H name ps qs r p q w tr x) : ∀ k k', p k ≠ q k' := fun k k' => c.rings.ne (c.primary k) (c.secondary k')

theorem RetornUse.again (c : RetornUse U H name ps qs r p q w tr x) {l : List (Deed S Op)} {a : Mended S}
    (hl : MendedRun U.call U.method U.proc (Mended.start w) l a) : AgainRun true (fun _ => metaCall) (replicaProg H r) U.proc (Shaky.start w) l (whole a) := by
  have h := again_of hl
  rw [c.conns, c.methods] at h
  exact h

theorem RetornUse.torn (c : RetornUse U H name ps qs r p q w tr x) {l1 l2 : List (Deed S Op)} {a1 a2 : Mended S}
    (hl1 : MendedRun U.call U.method U.proc (Mended.start w) l1 a1) (hl2 : MendedRun U.call U.method U.proc a1 l2 a2)
    (hv : Spec.Wired.Upto tr (seenOf l1 ++ seenOf l2)) :
    ∃ m1 z1 m2 z2, TornRun true p q U.proc (Torn.start w) m1 z1 ∧ TornRun true p q U.proc z1 m2 z2 ∧ seenOf m1 = seenOf l1 ∧ seenOf m2 = seenOf l2
      ∧ (∀ c s, Deed.mends c s ∈ m2 → Deed.mends c s ∈ l2) ∧ (∃ n, TornRel H r p q n (whole a1) z1) ∧ TornRel H r p q 0 (whole a2) z2 := by
  have hv := hv.starts
  rw [starts_append] at hv
  have hk : ∀ i o, (i, o) ∈ Spec.Wired.starts (seenOf l1) ++ Spec.Wired.starts (seenOf l2) → PlainOp o :=
    fun i o hm => c.kinds i o (mem_starts.1 (hv.subset hm))
  have h1 := c.again hl1
  have h2 : AgainRun true (fun _ => metaCall) (replicaProg H r) U.proc (whole a1) l2 (whole a2) := by
    have h := again_of hl2
    rw [c.conns, c.methods] at h
    exact h
  have hb : carriedOut l1 + carriedOut l2 ≤ 3 * (Spec.Wired.starts tr).length := by
    have := Wired.few_carried (c.again (mendedRun_trans hl1 hl2))
    rw [carriedOut_append, seenOf_append, starts_append] at this
    have := hv.length_le
    omega
  obtain ⟨m1, z1, g1, g2, -, -, g3⟩ := Wired.torn_run c.primary c.secondary c.ne h1 (fun i o hm => hk i o (List.mem_append_left _ hm)) (carriedOut l2)
    (Wired.torn_start (healthy_mono c.healthy (by omega)))
  obtain ⟨m2, z2, k1, k2, -, k3, k4⟩ := Wired.torn_run c.primary c.secondary c.ne h2 (fun i o hm => hk i o (List.mem_append_right _ hm)) 0
    (by rw [Nat.zero_add]; exact g3)
  exact ⟨m1, z1, m2, z2, g1, k1, g2, k2, k3, ⟨_, g3⟩, k4⟩

theorem RetornUse.fine (c : RetornUse U H name ps qs r p q w tr x) : ∀ l a, MendedRun U.call U.method U.proc (Mended.start w) l a →
    Spec.Wired.Upto tr (seenOf l) → NextFine U.call a.now := by
  intro l a hl hv
  obtain ⟨_, _, _, _, _, _, _, _, _, _, g⟩ := c.torn hl .nil (by rw [show seenOf ([] : List (Deed S Op)) = [] from rfl, List.append_nil]; exact hv)
  rw [c.conns]
  exact g.fine c.primary c.secondary

theorem RetornUse.clients (c : RetornUse U H name ps qs r p q w tr x) : Clients U := .inr c.conns

theorem RetornUse.mended (c : RetornUse U H name ps qs r p q w tr x) :
    ∃ l a, MendedRun U.call U.method U.proc (Mended.start w) l a ∧ seenOf l = tr ∧ carriedOut l = x.calls
      ∧ a.now.world = x.world ∧ a.now.prog = x.prog ∧ (∀ c s, a.now.down c s ↔ Broken x c s) ∧ ∀ c s, a.era c s = successes (x.line c s).conn.log :=
  C86_refines c.clients c.run fun l a hl hv _ => c.fine l a hl (.inl hv)

/-- **C88**: what all processes see of the methods of replica pools, and what the primaries hold, is what could be if
every method were carried out at one moment between its call and its return by the primary of its key, were it not that
a method may return an error if the connection in use between its process and the primary, or after a change the
secondary, is broken, and then it may have been carried out, or be carried out later, also when the connection has been
replaced, at most once, or never. -/
theorem C88_pool (c : RetornUse U H name ps qs r p q w tr x) :
    ∃ l z, TornRun true p q U.proc (Torn.start w) l z ∧ seenOf l = tr ∧ (∀ k, z.world (p k) = x.world (p k))
      ∧ (∀ n s, z.broken n s ↔ Broken x n s) ∧ ∀ i, z.calls i = none ↔ x.prog i = none := by
  obtain ⟨l, a, h1, h2, h3, h4, h5, h6, -⟩ := c.mended
  obtain ⟨m, z, m2, z2, g1, g2, g3, g4, -, -, g5⟩ := c.torn h1 .nil (.inl (by rw [h2]; show tr ++ [] <+: tr; rw [List.append_nil]; exact List.prefix_refl _))
  have hm := trans g1 g2
  refine ⟨m ++ m2, z2, hm, by rw [seenOf_append, g3, g4, h2]; exact List.append_nil _, fun k => ?_, fun n s => ?_, fun i => ?_⟩
  · rw [← g5.same k, ← h4]; rfl
  · rw [g5.broken]; exact h6 n s
  · rw [← h5]; exact (g5.each i).none_iff
where
  trans {proc : Nat → Nat} {z0 z1 z2 : Torn S} {l1 l2 : List (Deed S Op)} (h1 : TornRun true p q proc z0 l1 z1) (h2 : TornRun true p q proc z1 l2 z2) :
      TornRun true p q proc z0 (l1 ++ l2) z2 := by
    induction h2 with
    | nil => rw [List.append_nil]; exact h1
    | snoc _ hs ih => rw [← List.append_assoc]; exact .snoc ih hs

/-- **C88**: no method sends more than three commands, and none is carried out twice, Reconnect or not. -/
theorem C88_commands (c : RetornUse U H name ps qs r p q w tr x) : x.calls ≤ 3 * (Spec.Wired.starts tr).length := by
  obtain ⟨l, a, h1, h2, h3, -⟩ := c.mended
  have := Wired.few_carried (c.again h1)
  rw [h2, h3] at this
  exact this

/-- **C88**: look at any part of a run, from a moment `x1` at which goroutine `i` is in no method to a moment `x2`.  If a
method that it calls and that returns in between returns a connection error, then a connection of its own process is
broken at the end or has been replaced in between: the one to the primary of the key, or, unless the method is Get, the one
to the secondary. -/
theorem C88_error_broken {tr1 tr2 : List (Ev Op)} {x1 x2 : State S} (c : RetornUse U H name ps qs r p q w (tr1 ++ tr2) x2)
    (h1 : Run U (State.init w) tr1 x1) (h2 : Run U x1 tr2 x2) {i : Nat} (hi : x1.prog i = none) {o : Op} (ho : Spec.Wired.Answered tr2 i o (.err .io)) :
    ∃ k, o.key? = some k
      ∧ ((Broken x2 (U.proc i) (p k) ∨ successes (x1.line (U.proc i) (p k)).conn.log < successes (x2.line (U.proc i) (p k)).conn.log)
        ∨ (Broken x2 (U.proc i) (q k) ∨ successes (x1.line (U.proc i) (q k)).conn.log < successes (x2.line (U.proc i) (q k)).conn.log)
          ∧ ∀ k', o ≠ .get k') := by
  obtain ⟨l1, a1, ph1, g1, g2, g3, g4⟩ := resim_run c.clients.readers h1 (resim_init U w) fun l a hl hv _ =>
    c.fine l a hl (.inl (hv.trans (List.prefix_append _ _)))
  obtain ⟨l2, a2, ph2, k1, k2, k3, k4⟩ := resim_run c.clients.readers h2 g4 fun l a hl hv _ => c.fine _ a (mendedRun_trans g1 hl) (.inl (by
    rw [seenOf_append, g2]
    exact (List.prefix_append_right_inj _).2 hv))
  obtain ⟨m1, z1, m2, z2, v1, v2, v3, v4, v5, ⟨n, v6⟩, v7⟩ := c.torn g1 k1 (.inl (by rw [g2, k2]; exact List.prefix_refl _))
  have hz : z1.calls i = none := (v6.each i).none_iff.2 (by show a1.now.prog i = none; rw [g4.now.prog]; exact hi)
  obtain ⟨-, -, h⟩ := Wired.torn_errors v2 hz
  rw [v4, k2] at h
  have conv : ∀ s, (z2.broken (U.proc i) s ∨ Deed.mends (U.proc i) s ∈ m2) →
      Broken x2 (U.proc i) s ∨ successes (x1.line (U.proc i) s).conn.log < successes (x2.line (U.proc i) s).conn.log := by
    intro s hs
    refine hs.imp (fun b => ?_) fun b => ?_
    · have : a2.now.down (U.proc i) s := by
        have e := v7.broken
        rw [e] at b
        exact b
      rw [k4.now.down] at this
      have this : ((x2.line (U.proc i) s).conn.cur.ended || !(x2.line (U.proc i) s).conn.cur.isOpen) = true := this
      unfold Broken
      simpa using this
    · have := (mended_era k1).2 _ _ (v5 _ _ b)
      rw [g4.era, k4.era, (g4.inv _ _).gen.num, (k4.inv _ _).gen.num] at this
      exact this
  obtain ⟨k, e1, e2⟩ := (h o ho).mono conv
  refine ⟨k, e1, e2.imp id fun e => ⟨e.1, ?_⟩⟩
  rintro k' rfl
  cases e.2

/-- **C88**: methods of replica pools and Reconnect return, whatever connections have broken. -/
theorem C88_run_on (c : RetornUse U H name ps qs r p q w tr x) :
    (∃ tr' y, Run U x tr' y ∧ RetornUse U H name ps qs r p q w (tr ++ tr') y ∧ Spec.Wired.starts tr' = []
        ∧ (∀ n s g, ((y.line n s).conn.conns g).ended = ((x.line n s).conn.conns g).ended)
        ∧ (∀ n s, (∀ t, ¬ Spec.Rewired.Reconnecting x n s t) → (Broken y n s ↔ Broken x n s) ∧ successes (y.line n s).conn.log = successes (x.line n s).conn.log)
        ∧ Spec.Rewired.AllBack y)
      ∧ ¬ ∃ f : Nat → State S, f 0 = x ∧ ∀ n, Spec.Rewired.GoesOn U (f n) (f (n + 1)) := by
  refine ⟨?_, C86_finite c.clients c.run c.fine⟩
  obtain ⟨tr', y, h1, h2, h3, h4, h5⟩ := C86_run_on c.clients c.run c.fine
  have hs : Spec.Wired.starts (tr ++ tr') = Spec.Wired.starts tr := by rw [starts_append, h2, List.append_nil]
  exact ⟨tr', y, h1, ⟨c.conns, c.methods, c.rings, c.primary, c.secondary, c.run.trans h1,
    fun i o hm => c.kinds i o (mem_starts.1 (by rw [← hs]; exact mem_starts.2 hm)), by rw [hs]; exact c.healthy⟩, h2, h3, h4, h5⟩

/-- **C88**: whatever connections break and are replaced, and whatever is carried out late: on each server key `k` is as it
was at the beginning, or as one of the calls left it; if it was changed on the secondary, it was changed on the primary; and
once a call that changes it has returned without an error, it has been changed on both. -/
theorem C88_durable (c : RetornUse U H name ps qs r p q w tr x) {k : Bytes}
    (ho : ∀ i o, Ev.start i o ∈ tr → o.key? = some k → changing o = true → KeepsOrDrops k o) :
    ((x.world (p k)).data k = (w (p k)).data k ∨ Spec.Wired.ByCall tr k (x.world (p k)))
      ∧ ((x.world (q k)).data k = (w (q k)).data k ∨ (Spec.Wired.ByCall tr k (x.world (q k)) ∧ Spec.Wired.ByCall tr k (x.world (p k))))
      ∧ ∀ i o y, Spec.Wired.Answered tr i o (.ok y) → o.key? = some k → changing o = true →
          Spec.Wired.ByCall tr k (x.world (p k)) ∧ Spec.Wired.ByCall tr k (x.world (q k)) := by
  obtain ⟨l, a, h1, h2, h3, h4, -⟩ := c.mended
  have h1 := c.again h1
  obtain ⟨cur, d⟩ := Wired.durable_run (k := k) c.primary c.secondary c.ne (Wired.works1 c.kinds ho) h1
    (fun i o hm => by rw [h2] at hm; have := mem_starts.1 hm; exact ⟨c.kinds i o this, i, this⟩)
    (healthy_mono c.healthy (by have := Wired.few_carried h1; rw [h2] at this; omega))
  rw [h2] at d
  rw [← h4]
  exact ⟨d.pair.primary, d.pair.secondary, fun i o y hy g1 g2 => d.answered i o y hy ⟨g1, g2⟩⟩

/-- **C88**: in particular, if one call only changes key `k`: each server holds what it held or what the call left, the
secondary the latter only if the primary does; and if the call returned without an error, both hold what it left. -/
theorem C88_sole_writer (c : RetornUse U H name ps qs r p q w tr x) {k : Bytes} {o : Op} (hko : KeepsOrDrops k o)
    (ho : ∀ j o', Ev.start j o' ∈ tr → o'.key? = some k → changing o' = true → o' = o) :
    ((x.world (p k)).data k = (w (p k)).data k ∨ LeavesBehind k o (x.world (p k)))
      ∧ ((x.world (q k)).data k = (w (q k)).data k ∨ (LeavesBehind k o (x.world (q k)) ∧ LeavesBehind k o (x.world (p k))))
      ∧ ∀ i y, Spec.Wired.Answered tr i o (.ok y) → o.key? = some k → changing o = true →
          LeavesBehind k o (x.world (p k)) ∧ LeavesBehind k o (x.world (q k)) := by
  have one : ∀ {st}, Spec.Wired.ByCall tr k st → LeavesBehind k o st := by
    rintro st ⟨i, o', h1, h2, h3, h4⟩
    rwa [ho i o' h1 h2 h3] at h4
  obtain ⟨h1, h2, h3⟩ := C88_durable c (k := k) fun i o' g1 g2 g3 => by rw [ho i o' g1 g2 g3]; exact hko
  exact ⟨h1.imp id one, h2.imp id fun h => ⟨one h.1, one h.2⟩, fun i y g1 g2 g3 => ⟨one (h3 i o y g1 g2 g3).1, one (h3 i o y g1 g2 g3).2⟩⟩

/-- **C88**: once a call that changes key `k` has returned without an error to any process, every Get of `k` called
later by any process gets a value that one of the calls has given, or, if `k` was deleted by one, ItemNotFound; or a
connection error.  Never what was there at first. -/
theorem C88_read_after (c : RetornUse U H name ps qs r p q w tr x) {k : Bytes}
    (ho : ∀ i o, Ev.start i o ∈ tr → o.key? = some k → changing o = true → KeepsOrDrops k o) {res : Res Out}
    (hr : Spec.Wired.ReadAfter tr k res) : res = .err .io ∨ Spec.Wired.OneOfThese tr k res := by
  obtain ⟨l, z, h1, h2, -⟩ := C88_pool c
  have h := (Wired.recent_run (Wired.works1 c.kinds ho) (fun o ⟨i, hi⟩ => c.kinds i o hi) h1 (fun i o hi => ⟨i, by rwa [h2] at hi⟩)).read res
    (by rw [h2]; exact hr)
  exact Wired.reads_one h

/-- **C88**: a method returns what the memcached of its key answers in some state, or a connection error; Increment
and Decrement may return ItemNotFound although the key was there. -/
theorem C88_results (c : RetornUse U H name ps qs r p q w tr x) {i : Nat} {o : Op} {res : Res Out} (hi : Spec.Wired.Answered tr i o res) :
    res = .err .io ∨ ∃ st, Returns o (metaApi st o).1 res := by
  obtain ⟨l, z, h1, h2, -⟩ := C88_pool c
  exact (Wired.result_run h1 (fun i o hi => Wired.plain_key (c.kinds i o (by rwa [h2] at hi)))).2.2.2 i o res (by rw [h2]; exact hi)

end
end Rewired
end Verif
