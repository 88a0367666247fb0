import Verif.Props.RewiredReplica
import Verif.Props.RewiredWitness
import Verif.Props.WiredTornWitness
/-!
C88: examples.
-/

namespace Verif
namespace Rewired
open Kv Spec Mc Pool Cluster Props
open Wired (Setup Ev sites)

/-- What is seen before Reconnect, and after it. -/
def beforeSet : List (Ev Op) := [.start 0 (.set { key := b!"x", value := b!"1" }), .finish 0 (.err .io)]
def afterSet : List (Ev Op) := [.start 0 (.set { key := b!"x", value := b!"2" }), .finish 0 (.ok .done)]
def afterGet (it : Item) : List (Ev Op) := [.start 1 (.get b!"x"), .finish 1 (.ok (.item it))]

theorem set_prog2 {H : Hashes} {r : ReplicaPool Bytes} {it : Item} {s t : Bytes} (h : r.primary.pick H it.key = .ok s) (h2 : r.secondary.pick H it.key = .ok t) :
    ∃ fin fin2, replicaProg H r (.set it) = .call s (.set it) fin ∧ fin (.err .io) = .ret (.err .io) ∧ fin (.ok .done) = .call t (.set it) fin2
      ∧ fin2 (.ok .done) = .ret (.ok .done) := by
  simp only [replicaProg, twoCalls, h, h2, onPick]
  exact ⟨_, _, rfl, rfl, rfl, rfl⟩

theorem get_prog {H : Hashes} {r : ReplicaPool Bytes} {k s : Bytes} (h : r.primary.pick H k = .ok s) :
    ∃ hin, replicaProg H r (.get k) = .call s (.get k) hin ∧ ∀ it, hin (.ok (.item it)) = .ret (.ok (.item it)) := by
  simp only [replicaProg, h, onPick]
  exact ⟨_, rfl, fun _ => rfl⟩

/-- Process 0 sets a key to "1"; its connection to the primary breaks and the call fails, without having been carried out.
Reconnect replaces the connection; process 0 sets the key to "2", without an error, and both servers have it (`x2`).  Then
the first request is carried out: the primary has "1", the secondary "2" (`x3`), and process 1 reads "1" (`x4`). -/
theorem C88_concrete : ∃ (p q : Bytes → Bytes) (x1 x2 x3 x4 : State Bytes) (it : Item), p b!"x" = b!"a" ∧ q b!"x" = b!"c"
    ∧ Run sites (State.init empties) beforeSet x1 ∧ Run sites x1 afterSet x2 ∧ x1.prog 0 = none
    ∧ RetornUse sites realHashes id [b!"a", b!"b"] [b!"c"] abc p q empties (beforeSet ++ afterSet) x2
    ∧ RetornUse sites realHashes id [b!"a", b!"b"] [b!"c"] abc p q empties (beforeSet ++ afterSet) x3
    ∧ RetornUse sites realHashes id [b!"a", b!"b"] [b!"c"] abc p q empties (beforeSet ++ afterSet ++ afterGet it) x4
    ∧ successes (x1.line 0 b!"a").conn.log = 1 ∧ successes (x3.line 0 b!"a").conn.log = 1 ∧ ¬ Broken x3 0 b!"a"
    ∧ (∃ e, (x1.world b!"a").find b!"x" = none ∧ (x1.world b!"c").find b!"x" = none
        ∧ (x2.world b!"a").find b!"x" = some e ∧ e.value = b!"2")
    ∧ (∃ e, (x2.world b!"c").find b!"x" = some e ∧ e.value = b!"2")
    ∧ (∃ e, (x3.world b!"a").find b!"x" = some e ∧ e.value = b!"1")
    ∧ (∃ e, (x3.world b!"c").find b!"x" = some e ∧ e.value = b!"2")
    ∧ it.value = b!"1" ∧ Spec.Wired.ReadAfter (beforeSet ++ afterSet ++ afterGet it) b!"x" (.ok (.item it)) := by
  have hpick : ∀ k, ∃ z : Bytes × Bytes, abc.primary.pick realHashes k = .ok z.1 ∧ abc.secondary.pick realHashes k = .ok z.2 := fun k => by
    obtain ⟨p, q, hp, hq⟩ := abc_rings.picks k
    exact ⟨(p, q), hp, hq⟩
  obtain ⟨f, hf⟩ := Classical.axiomOfChoice hpick
  have hx : (f b!"x").1 = b!"a" := by
    have := (hf b!"x").1
    rw [abc_a] at this
    injection this with this
    exact this.symm
  have hc : ∀ k, (f k).2 = b!"c" := fun k => by
    have := (hf k).2
    rw [abc_c] at this
    injection this with this
    exact this.symm
  have use : ∀ {tr x}, Run sites (State.init empties) tr x → (∀ i o, (i, o) ∈ Spec.Wired.starts tr → PlainOp o) → (Spec.Wired.starts tr).length < 4 →
      RetornUse sites realHashes id [b!"a", b!"b"] [b!"c"] abc (fun k => (f k).1) (fun k => (f k).2) empties tr x := by
    intro tr x hr hk hl
    exact ⟨rfl, rfl, abc_rings, fun k => (hf k).1, fun k => (hf k).2, hr, fun i o h => hk i o (Wired.mem_starts.2 h), empties_healthy _ (by
      have : (2 : Nat) ^ 62 = 4611686018427387904 := by decide
      omega)⟩
  have plain : ∀ v : Bytes, v.length ≤ maxValue → PlainOp (.set { key := b!"x", value := v }) := fun v hv => Wired.set_plain (by decide) hv
  -- the methods
  have hm : ∀ v : Bytes, ∃ fin fin2, sites.method (.set { key := b!"x", value := v }) = .call b!"a" (.set { key := b!"x", value := v }) fin
      ∧ fin (.err .io) = .ret (.err .io) ∧ fin (.ok .done) = .call b!"c" (.set { key := b!"x", value := v }) fin2 ∧ fin2 (.ok .done) = .ret (.ok .done) := by
    exact fun v => set_prog2 abc_a (abc_c _)
  obtain ⟨fin, -, hm1, hm2, -⟩ := hm b!"1"
  obtain ⟨gin, gin2, gm1, -, gm2, gm3⟩ := hm b!"2"
  obtain ⟨hin, km1, km2⟩ : ∃ hin, sites.method (.get b!"x") = .call b!"a" (.get b!"x") hin ∧ ∀ it, hin (.ok (.item it)) = .ret (.ok (.item it)) :=
    get_prog abc_a
  have hw1 : (sites.call b!"a" (.set { key := b!"x", value := b!"1" })).wire = .ok b!"ms x 1 T0\r\n1\r\n" := by decide +kernel
  have hw2 : (sites.call b!"a" (.set { key := b!"x", value := b!"2" })).wire = .ok b!"ms x 1 T0\r\n2\r\n" := by decide +kernel
  have hw3 : (sites.call b!"a" (.get b!"x")).wire = .ok b!"mg x v f c t\r\n" := by decide +kernel
  have hrd2 : (sites.call b!"a" (.set { key := b!"x", value := b!"2" })).rd b!"HD\r\n" = (.ok .done, []) := by rfl
  obtain ⟨it, hrd3, hit⟩ : ∃ it : Item, (sites.call b!"a" (.get b!"x")).rd b!"VA 1 f0 c2 t-1\r\n1\r\n" = (.ok (.item it), []) ∧ it.value = b!"1" := ⟨_, rfl, by decide +kernel⟩
  -- what the servers do
  obtain ⟨st1, st2, st3, hs1, hs2, hs3, ⟨e1, he1, hv1, hx1⟩, e2, he2, hv2, hx2⟩ : ∃ st1 st2 st3,
      Mc.step (empties b!"a") b!"ms x 1 T0\r\n2\r\n" = some (b!"HD\r\n", st1, [])
      ∧ Mc.step st1 b!"ms x 1 T0\r\n1\r\n" = some (b!"HD\r\n", st2, [])
      ∧ Mc.step st2 b!"mg x v f c t\r\n" = some (b!"VA 1 f0 c2 t-1\r\n1\r\n", st3, [])
      ∧ (∃ e, st1.data b!"x" = some e ∧ e.value = b!"2" ∧ e.expiry = none)
      ∧ ∃ e, st2.data b!"x" = some e ∧ e.value = b!"1" ∧ e.expiry = none := by
    have key1 : ((Mc.step (empties b!"a") b!"ms x 1 T0\r\n2\r\n").map fun y => (y.1, y.2.2, (y.2.1.data b!"x").map fun e => (e.value, e.expiry)))
        = some (b!"HD\r\n", [], some (b!"2", none)) := by decide +kernel
    have key2 : ((Mc.step (empties b!"a") b!"ms x 1 T0\r\n2\r\n").bind fun y => (Mc.step y.2.1 b!"ms x 1 T0\r\n1\r\n").map fun z =>
        (z.1, z.2.2, (z.2.1.data b!"x").map fun e => (e.value, e.expiry))) = some (b!"HD\r\n", [], some (b!"1", none)) := by decide +kernel
    have key3 : ((Mc.step (empties b!"a") b!"ms x 1 T0\r\n2\r\n").bind fun y => (Mc.step y.2.1 b!"ms x 1 T0\r\n1\r\n").bind fun z =>
        (Mc.step z.2.1 b!"mg x v f c t\r\n").map fun u => (u.1, u.2.2)) = some (b!"VA 1 f0 c2 t-1\r\n1\r\n", []) := by decide +kernel
    obtain ⟨y, h1, h2⟩ := Option.map_eq_some_iff.1 key1
    rw [h1, Option.bind_some] at key2 key3
    obtain ⟨z, h3, h4⟩ := Option.map_eq_some_iff.1 key2
    rw [h3, Option.bind_some] at key3
    obtain ⟨u, h5, h6⟩ := Option.map_eq_some_iff.1 key3
    simp only [Prod.mk.injEq] at h2 h4 h6
    obtain ⟨a1, a2, a3⟩ := h2
    obtain ⟨a4, a5, a6⟩ := h4
    obtain ⟨a7, a8⟩ := h6
    obtain ⟨e, g1, g2⟩ := Option.map_eq_some_iff.1 a3
    obtain ⟨e', g3, g4⟩ := Option.map_eq_some_iff.1 a6
    simp only [Prod.mk.injEq] at g2 g4
    exact ⟨y.2.1, z.2.1, u.2.1, by rw [h1, ← a1, ← a2], by rw [h3, ← a4, ← a5], by rw [h5, ← a7, ← a8], ⟨e, g1, g2⟩, e', g3, g4⟩
  -- the first Set
  have r0 : Run sites (State.init empties) [] _ := .nil
  have r1 := r0.snoc (.start _ 0 (.set { key := b!"x", value := b!"1" }) rfl)
  rw [← put_same ((State.init empties).set 0 _) (sites.proc 0) b!"a"] at r1
  have rdy : ∀ i, Ready i (Reconn.init : Reconn.State Nat) := fun i => ⟨rfl, rfl, rfl, rfl, rfl, by decide⟩
  obtain ⟨b, hb, r2⟩ := run_sent rfl r1 (i := 0) (by rw [← hm1]; rfl) (rdy 0) hw1
  obtain ⟨c, c1, c2, c3, c4, c5, c6, c7, r3⟩ := run_tardy r2 (i := 0) (by rw [← hm1]; rfl) (rdy 0) hb
  rw [hm2] at r3
  have r4 := r3.snoc (.finish _ 0 (.err .io) rfl)
  -- Reconnect
  rw [← put_same (State.set _ 0 none) (sites.proc 0) b!"a"] at r4
  obtain ⟨d, d1, d2, d3, d4, d5, d6, d7, -, r5⟩ := run_reconnect r4 (i := 0) c1 c2 (g := 0) c4 (by
    show (c.conns 0).isOpen = true
    rw [c6]; rfl)
  have dc : d.conn = 1 := d3.trans c5
  have dr : d.raw = some 1 := d4.trans (congrArg some c5)
  have dd : d.dialled = 2 := d5.trans (congrArg (· + 1) c5)
  have dn1 : d.conns 1 = {} := by rw [d6, if_neg (by decide)]; show c.conns 1 = _; rw [c6]; rfl
  have dn0 : (d.conns 0).sent = b!"ms x 1 T0\r\n1\r\n" := by
    rw [d6, if_pos rfl]
    show (c.conns 0).sent = _
    rw [c6]; rfl
  have dcur : d.cur = {} := by show d.conns d.conn = _; rw [dc]; exact dn1
  have ds : successes d.log = 1 := by
    rw [d7]
    show successes c.log + 1 = 1
    rw [c7]; rfl
  -- the second Set, the first request, the Get
  have key : ∀ x1 : State Bytes, x1.line 0 b!"a" = { conn := d } → x1.line 0 b!"c" = {} → x1.line 1 b!"a" = {} → x1.prog 0 = none → x1.prog 1 = none →
      x1.world = empties → ∃ x2 x3 x4, Run sites x1 afterSet x2 ∧ Run sites x1 afterSet x3 ∧ Run sites x1 (afterSet ++ afterGet it) x4
        ∧ x2.world b!"a" = st1 ∧ x2.world b!"c" = st1 ∧ x3.world b!"a" = st2 ∧ x3.world b!"c" = st1
        ∧ successes (x3.line 0 b!"a").conn.log = 1 ∧ ¬ Broken x3 0 b!"a" := by
    intro x1 hl hl2 hl3 hp hp1 hw
    have r0 : Run sites x1 [] _ := .nil
    have r1 := r0.snoc (.start _ 0 (.set { key := b!"x", value := b!"2" }) hp)
    rw [← put_same (x1.set 0 _) (sites.proc 0) b!"a", show (x1.set 0 (some (sites.method (.set { key := b!"x", value := b!"2" })))).line (sites.proc 0) b!"a" = { conn := d } from hl] at r1
    have rdd : Ready 0 d := ⟨d1, d2, dr.trans (congrArg some dc.symm), by rw [dcur], by rw [dcur], by rw [dc, dd]; decide⟩
    obtain ⟨b, hb, r2⟩ := run_sent rfl r1 (i := 0) (by rw [← gm1]; rfl) rdd hw2
    obtain ⟨l', l1, l2, l3, l4, l5, l6, r3⟩ := run_good r2 (i := 0) (by rw [← gm1]; rfl) rdd hb (by rw [dcur]) (by rw [dcur]) (by rw [dcur]) (by rw [dcur]; rfl)
      (by show Mc.step (x1.world b!"a") _ = _; rw [hw]; exact hs1) hrd2
    rw [gm2] at r3
    obtain ⟨y, r3, y1, y2, y3, y4, y5, y6⟩ : ∃ y : State Bytes, Run sites x1 [.start 0 (.set { key := b!"x", value := b!"2" })] y
        ∧ y.line 0 b!"a" = l' ∧ y.line 0 b!"c" = {} ∧ y.line 1 b!"a" = {} ∧ y.prog 0 = some (.call b!"c" (.set { key := b!"x", value := b!"2" }) gin2)
        ∧ y.prog 1 = none ∧ y.world = World.update empties b!"a" st1 :=
      ⟨_, r3, rfl, hl2, hl3, rfl, hp1, by rw [← hw]; rfl⟩
    rw [← put_same y (sites.proc 0) b!"c", show y.line (sites.proc 0) b!"c" = {} from y2] at r3
    obtain ⟨b2, hb2, r4⟩ := run_sent rfl r3 (i := 0) y4 (rdy 0) hw2
    obtain ⟨l'', m1, m2, m3, m4, m5, m6, r5⟩ := run_good r4 (i := 0) y4 (rdy 0) hb2 rfl rfl rfl rfl
      (by show Mc.step (y.world b!"c") _ = _; rw [y6]; exact hs1) hrd2
    rw [gm3] at r5
    have r6 := r5.snoc (.finish _ 0 (.ok .done) rfl)
    obtain ⟨x2, r6, z1, z3, z5, z6⟩ : ∃ x2 : State Bytes, Run sites x1 afterSet x2
        ∧ x2.line 0 b!"a" = l' ∧ x2.line 1 b!"a" = {}
        ∧ x2.prog 1 = none ∧ x2.world = World.update (World.update empties b!"a" st1) b!"c" st1 :=
      ⟨_, r6, y1, y3, y5, by rw [← y6]; rfl⟩
    obtain ⟨l7, l8⟩ := l5 0 (by rw [dc]; decide)
    have r7 := r6.snoc (.serve _ 0 b!"a" 0 b!"ms x 1 T0\r\n1\r\n" [] b!"HD\r\n" [] st2 (by
      rw [z1, l7, l8, dn0]; rfl) (by rw [z6]; exact hs2))
    rw [Option.toList_none, List.append_nil] at r7
    obtain ⟨x3, r7, w1, w2, w3, w4⟩ : ∃ x3 : State Bytes, Run sites x1 afterSet x3 ∧ (x3.line 0 b!"a").conn = l'.conn ∧ x3.line 1 b!"a" = {}
        ∧ x3.prog 1 = none ∧ x3.world = World.update (World.update (World.update empties b!"a" st1) b!"c" st1) b!"a" st2 :=
      ⟨_, r7, by rw [← z1]; rfl, z3, z5, by rw [← z6]⟩
    have r8 := r7.snoc (.start _ 1 (.get b!"x") w3)
    rw [← put_same (x3.set 1 _) (sites.proc 1) b!"a", show (x3.set 1 (some (sites.method (.get b!"x")))).line (sites.proc 1) b!"a" = {} from w2] at r8
    obtain ⟨b3, hb3, r9⟩ := run_sent rfl r8 (i := 1) (by rw [← km1]; rfl) (rdy 1) hw3
    obtain ⟨l3', -, -, -, -, -, -, r10⟩ := run_good r9 (i := 1) (by rw [← km1]; rfl) (rdy 1) hb3 rfl rfl rfl rfl
      (by show Mc.step (x3.world b!"a") _ = _; rw [w4]; exact hs3) hrd3
    rw [km2] at r10
    have r11 := r10.snoc (.finish _ 1 (.ok (.item it)) rfl)
    refine ⟨x2, x3, _, r6, r7, r11, by rw [z6]; rfl, by rw [z6]; rfl, by rw [w4]; rfl, by rw [w4]; rfl, by rw [w1]; exact l6.trans ds, ?_⟩
    unfold Broken
    rw [w1]
    rintro (g | g)
    · exact absurd (l2.symm.trans g) nofun
    · exact absurd (l3.symm.trans g) nofun
  obtain ⟨x1, r6, hl, hl2, hl3, hp, hp1, hw⟩ : ∃ x1, Run sites (State.init empties) beforeSet x1 ∧ x1.line 0 b!"a" = { conn := d } ∧ x1.line 0 b!"c" = {}
      ∧ x1.line 1 b!"a" = {} ∧ x1.prog 0 = none ∧ x1.prog 1 = none ∧ x1.world = empties :=
    ⟨_, r5, rfl, rfl, rfl, rfl, rfl, rfl⟩
  obtain ⟨x2, x3, x4, q1, q2, q3, q4, q5, q6, q7, q8, q9⟩ := key x1 hl hl2 hl3 hp hp1 hw
  have f1 := find_forever he1 hx1
  have f2 := find_forever he2 hx2
  have us : ∀ {x}, Run sites (State.init empties) (beforeSet ++ afterSet) x → RetornUse sites realHashes id [b!"a", b!"b"] [b!"c"] abc (fun k => (f k).1) (fun k => (f k).2) empties (beforeSet ++ afterSet) x := by
    intro x hr
    refine use hr (fun i o h => ?_) (by decide)
    simp only [beforeSet, afterSet, List.cons_append, List.nil_append, Spec.Wired.starts, List.mem_cons, List.not_mem_nil, or_false, Prod.mk.injEq] at h
    rcases h with ⟨-, rfl⟩ | ⟨-, rfl⟩ <;> exact plain _ (by decide)
  refine ⟨fun k => (f k).1, fun k => (f k).2, x1, x2, x3, x4, it, hx, hc _, r6, q1, hp, us (r6.trans q1), us (r6.trans q2), ?_, by rw [hl]; exact ds, q8, q9,
    ⟨e1, by rw [hw]; rfl, by rw [hw]; rfl, by rw [q4]; exact f1, hv1⟩, ⟨e1, by rw [q5]; exact f1, hv1⟩, ⟨e2, by rw [q6]; exact f2, hv2⟩,
    ⟨e1, by rw [q7]; exact f1, hv1⟩, hit, ?_⟩
  · rw [List.append_assoc]
    refine use (r6.trans q3) (fun i o h => ?_) (by exact (by decide : (3 : Nat) < 4))
    simp only [beforeSet, afterSet, afterGet, List.cons_append, List.nil_append, Spec.Wired.starts, List.mem_cons, List.not_mem_nil, or_false, Prod.mk.injEq] at h
    rcases h with ⟨-, rfl⟩ | ⟨-, rfl⟩ | ⟨-, rfl⟩
    · exact plain _ (by decide)
    · exact plain _ (by decide)
    · exact (by decide : Key b!"x")
  · refine ⟨beforeSet ++ afterSet, [], [], 1, rfl, fun _ h => (by cases h), 0, .set { key := b!"x", value := b!"2" }, .done, ?_, rfl, rfl⟩
    exact ⟨beforeSet ++ [.start 0 (.set { key := b!"x", value := b!"2" })], [], rfl, beforeSet, [], rfl, fun _ h => (by cases h)⟩

/-- From Reconnect on `C88_error_broken` applies: however the run had gone on to a moment at which the connections of process 0
are neither broken nor replaced, no Set of the key would have returned a connection error. -/
example (p q : Bytes → Bytes) (tr1 tr2 : List (Ev Op)) (x1 x3 : State Bytes)
    (c : RetornUse sites realHashes id [b!"a", b!"b"] [b!"c"] abc p q empties (tr1 ++ tr2) x3)
    (h1 : Run sites (State.init empties) tr1 x1) (h2 : Run sites x1 tr2 x3) (hi : x1.prog 0 = none) (v : Bytes)
    (hb : ∀ s, ¬ Broken x3 0 s) (hr : ∀ s, successes (x3.line 0 s).conn.log = successes (x1.line 0 s).conn.log) :
    ¬ Spec.Wired.Answered tr2 0 (.set { key := b!"x", value := v }) (.err .io) := by
  intro hf
  obtain ⟨k, -, g⟩ := C88_error_broken c h1 h2 hi hf
  have no : ∀ s, ¬ (Broken x3 (sites.proc 0) s ∨ successes (x1.line (sites.proc 0) s).conn.log < successes (x3.line (sites.proc 0) s).conn.log) := by
    rintro s (g | g)
    · exact hb s g
    · exact absurd g (by rw [show sites.proc 0 = 0 from rfl, hr]; exact Nat.lt_irrefl _)
  rcases g with g | ⟨g, -⟩ <;> exact no _ g

end Rewired
end Verif
