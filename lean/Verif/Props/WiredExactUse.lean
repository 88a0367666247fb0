import Verif.Props.WiredExact
import Verif.Props.RewiredFinite
import Verif.Props.RewiredWitness
/-!
C85, C86: examples for an exact counter and a lock that somebody gets.
-/

namespace Verif
namespace Wired
open Kv Spec Mc Pool Cluster Props

/-- Three goroutines, each in a process of its own, call a method each. -/
def three (f : Nat → Op) : List (Ev Op) := [.start 0 (f 0), .start 1 (f 1), .start 2 (f 2)]

theorem three_starts (f : Nat → Op) {tr' : List (Ev Op)} (h : Spec.Wired.starts tr' = []) :
    Spec.Wired.starts (three f ++ tr') = [(0, f 0), (1, f 1), (2, f 2)] := by
  rw [starts_append, h]; rfl

theorem three_of {f : Nat → Op} {i : Nat} {o : Op} (h : (i, o) ∈ [(0, f 0), (1, f 1), (2, f 2)]) : o = f i ∧ (i = 0 ∨ i = 1 ∨ i = 2) := by
  simp only [List.mem_cons, List.not_mem_nil, or_false, Prod.mk.injEq] at h
  rcases h with ⟨rfl, rfl⟩ | ⟨rfl, rfl⟩ | ⟨rfl, rfl⟩ <;> simp

/-- The three go on to the end, while the connection of another process breaks. -/
theorem three_through (f : Nat → Op) (k : Bytes) (hf : ∀ i, GoodOp (f i)) (hk : ∀ i, (f i).key? = some k) {p : Bytes → Bytes}
    (hpick : ∀ k, ab.pick realHashes k = .ok (p k)) :
    ∃ tr' x, FrailUse tellers realHashes id ab p (counters none) (three f ++ tr') x ∧ Spec.Wired.starts tr' = [] ∧ (∀ i, x.prog i = none)
      ∧ (∀ i, .finish i (.err .io) ∉ three f ++ tr') ∧ (x.line 9 b!"a").conn.ended = true := by
  have r0 : Run tellers (State.init (counters none)) [] _ := .nil
  have r1 := r0.snoc (.work _ 9 b!"a" _ (.hangUp _) fun _ => rfl)
  have r2 := r1.snoc (.start _ 0 (f 0) rfl)
  have r3 := r2.snoc (.start _ 1 (f 1) rfl)
  have r4 := r3.snoc (.start _ 2 (f 2) rfl)
  have hend : ∃ x0, Run tellers (State.init (counters none)) (three f) x0 ∧ ∀ q s, (x0.line q s).conn.ended = decide (q = 9 ∧ s = b!"a") := by
    refine ⟨_, r4, fun q s => ?_⟩
    show ((State.put _ 9 b!"a" _).line q s).conn.ended = _
    rw [put_line]
    by_cases e : q = 9 ∧ s = b!"a"
    · rw [if_pos e]; simp [e]
    · rw [if_neg e]; simp only [e, decide_false]; rfl
  obtain ⟨x0, hr, he⟩ := hend
  have st : Spec.Wired.starts (three f) = [(0, f 0), (1, f 1), (2, f 2)] := rfl
  have c : FrailUse tellers realHashes id ab p (counters none) (three f) x0 := by
    refine ⟨rfl, ⟨id, id, rfl⟩, hpick, hr, fun i o hi => ?_, fun _ => good_put _ _ (by decide), fun _ => (by decide : (2 : Nat) + 3 + 1 < 2 ^ 63)⟩
    obtain ⟨rfl, -⟩ := three_of hi
    exact ⟨hf i, by rw [hk]; nofun⟩
  obtain ⟨⟨tr', x, h1, h2, h3, h4⟩, -⟩ := C85_pool_run_on c
  refine ⟨tr', x, h1, h2, h4, fun i hi => ?_, by rw [h3, he]; rfl⟩
  obtain ⟨o, k', g1, g2, g3⟩ := C85_error_broken h1 hi
  rw [three_starts f h2] at g1
  obtain ⟨-, g1⟩ := three_of g1
  rw [h3, he] at g3
  have := (of_decide_eq_true g3).1
  have this : i = 9 := this
  omega

/-- The counter was 41, and is 44; the results are 42, 43 and 44. -/
theorem C85_exact_concrete : ∃ (p : Bytes → Bytes) (tr' : List (Ev Op)) (x : State Bytes),
    FrailUse tellers realHashes id ab p (counters none) (three (fun _ => .increment b!"x" 1 0) ++ tr') x
    ∧ (x.line 9 b!"a").conn.ended = true
    ∧ (∃ e, (x.world (p b!"x")).find b!"x" = some e ∧ counterOf e.value = some 44)
    ∧ (∀ v, v ∈ Spec.Wired.numbers (three (fun _ => .increment b!"x" 1 0) ++ tr') ↔ v = 42 ∨ v = 43 ∨ v = 44) := by
  obtain ⟨p, hx, -, h⟩ := C67_concrete [] (by simp) [] (by decide)
  obtain ⟨tr', x, c, hs, hback, hio, h9⟩ := three_through (fun _ => .increment b!"x" 1 0) b!"x" (fun _ => ⟨by decide, by decide⟩) (fun _ => rfl) h.pick
  have st := three_starts (fun _ => .increment b!"x" 1 0) hs
  obtain ⟨g1, -, g3⟩ := C85_counter_exact c (k := b!"x") (e := ⟨b!"41", 0, none, 1⟩) (m := 41) rfl rfl (by decide +kernel)
    (fun i o hi => by rw [st] at hi; exact ⟨0, (three_of (f := fun _ => .increment b!"x" 1 0) hi).1⟩) (by rw [st]; decide) hback hio
  rw [st] at g1 g3
  refine ⟨p, tr', x, c, h9, g1, fun v => ?_⟩
  rw [g3]
  show (41 : Int) < v ∧ v ≤ 44 ↔ _
  omega

/-- Nobody had "y"; three add it, and one is told so. -/
theorem C85_lock_concrete : ∃ (p : Bytes → Bytes) (tr' : List (Ev Op)) (x : State Bytes),
    FrailUse tellers realHashes id ab p (counters none) (three (fun i => .add { key := b!"y", value := if i = 0 then b!"me" else b!"you" }) ++ tr') x
    ∧ (Spec.Wired.winners (three (fun i => .add { key := b!"y", value := if i = 0 then b!"me" else b!"you" }) ++ tr')).length = 1 := by
  obtain ⟨p, -, hy, h⟩ := C67_concrete [] (by simp) [] (by decide)
  generalize hf : (fun i : Nat => Op.add { key := b!"y", value := if i = 0 then b!"me" else b!"you" }) = f
  have e : ∀ i, f i = Op.add { key := b!"y", value := if i = 0 then b!"me" else b!"you" } := fun i => by rw [← hf]
  obtain ⟨tr', x, c, hs, hback, hio, h9⟩ := three_through f b!"y" (fun i => by
    rw [e]
    by_cases h0 : i = 0
    · rw [if_pos h0]; exact ⟨by decide, by decide, by decide, by decide⟩
    · rw [if_neg h0]; exact ⟨by decide, by decide, by decide, by decide⟩) (fun i => by rw [e]; rfl) h.pick
  have st := three_starts f hs
  exact ⟨p, tr', x, c, C85_lock_won c (k := b!"y") rfl (fun i o hi => by
    rw [st] at hi
    rw [(three_of hi).1, e]
    exact ⟨_, rfl, rfl, rfl⟩) (by rw [st]; nofun) hback hio⟩

end Wired

namespace Rewired
open Kv Spec Mc Pool Cluster Props
open Wired (Setup Ev tellers three three_of three_starts)

/-- The connection of process 0 to "a" breaks and is replaced; then three goroutines call a method each, and go on to the
end. -/
theorem three_again (f : Nat → Op) (k : Bytes) (hf : ∀ i, GoodOp (f i)) (hk : ∀ i, (f i).key? = some k) {p : Bytes → Bytes}
    (hpick : ∀ k, ab.pick realHashes k = .ok (p k)) :
    ∃ tr' x, PatchedUse tellers realHashes id ab p (counters none) (three f ++ tr') x ∧ Spec.Wired.starts tr' = [] ∧ Spec.Rewired.AllBack x ∧ (∀ q s, ¬ Broken x q s)
      ∧ (∀ i, .finish i (.err .io) ∉ three f ++ tr') ∧ ((x.line 0 b!"a").conn.conns 0).ended = true ∧ successes (x.line 0 b!"a").conn.log = 1 := by
  have r0 : Run tellers (State.init (counters none)) [] _ := .nil
  have r1 := r0.snoc (.work _ 0 b!"a" _ (.hangUp _ 0 (by decide)) fun _ => rfl)
  obtain ⟨d, d1, d2, d3, d4, d5, d6, d7, d8, r2⟩ := run_reconnect r1 (i := 0) rfl rfl (g := 0) rfl rfl
  have dpc : ∀ t, d.pc t = .user .idle := fun t => by
    by_cases e : t = 0
    · rw [e]; exact d1
    · exact d8 t e
  have dc : d.conn = 1 := d3
  have ds : successes d.log = 1 := d7
  have dn0 : (d.conns 0).ended = true := by rw [d6, if_pos rfl]; rfl
  have dcur : d.cur = {} := by show d.conns d.conn = _; rw [dc, d6, if_neg (by decide)]; rfl
  obtain ⟨x1, r2, hl, hp⟩ : ∃ x1, Run tellers (State.init (counters none)) [] x1
      ∧ (∀ q s, (x1.line q s).conn = if q = 0 ∧ s = b!"a" then d else Reconn.init) ∧ ∀ i, x1.prog i = none := by
    refine ⟨_, r2, fun q s => ?_, fun i => rfl⟩
    rw [put_line]
    by_cases e : q = 0 ∧ s = b!"a"
    · rw [if_pos e]; exact congrArg Line.conn (if_pos e)
    · rw [if_neg e]; exact congrArg Line.conn (if_neg e)
  have s1 := (Run.nil (U := tellers) (w0 := x1)).snoc (.start _ 0 (f 0) (hp 0))
  have s2 := s1.snoc (.start _ 1 (f 1) (hp 1))
  have s3 := s2.snoc (.start _ 2 (f 2) (hp 2))
  obtain ⟨x2, s4, hl2⟩ : ∃ x2, Run tellers x1 (three f) x2 ∧ x2.line = x1.line := ⟨_, s3, rfl⟩
  have c : PatchedUse tellers realHashes id ab p (counters none) (three f) x2 := by
    refine ⟨rfl, ⟨id, id, rfl⟩, hpick, r2.trans s4, fun i o hi => ?_, fun _ => good_put _ _ (by decide), fun _ => (by decide : (2 : Nat) + 3 + 1 < 2 ^ 63)⟩
    obtain ⟨rfl, -⟩ := three_of hi
    exact ⟨hf i, by rw [hk]; nofun⟩
  have quiet : ∀ q s t, ¬ Spec.Rewired.Reconnecting x2 q s t := fun q s t h => by
    refine h .idle ?_
    rw [hl2, hl]
    by_cases e : q = 0 ∧ s = b!"a"
    · rw [if_pos e]; exact dpc t
    · rw [if_neg e]; rfl
  have whole : ∀ q s, ¬ Broken x2 q s := fun q s => by
    unfold Broken
    rw [hl2, hl]
    by_cases e : q = 0 ∧ s = b!"a"
    · rw [if_pos e, dcur]; simp
    · rw [if_neg e]
      rintro (h | h) <;> cases h
  obtain ⟨⟨tr', x, h1, h2, h3, h4, h5, h6⟩, -⟩ := C86_pool_run_on c
  refine ⟨tr', x, h2, h3, h6, fun q s hq => whole q s ((h5 q s (quiet q s)).1.1 hq), fun i hi => ?_, ?_, ?_⟩
  · obtain ⟨o, k', g1, g2, g3⟩ := C86_error_broken (tr1 := []) h2 r2 (s4.trans h1) (hp i) hi
    obtain ⟨e1, e2⟩ := h5 (tellers.proc i) (p k') (quiet _ _)
    rcases g3 with g | g
    · exact whole _ _ (e1.1 g)
    · rw [e2, hl2] at g; exact Nat.lt_irrefl _ g
  · rw [h4, hl2, hl, if_pos ⟨rfl, rfl⟩]; exact dn0
  · rw [(h5 0 b!"a" (quiet _ _)).2, hl2, hl, if_pos ⟨rfl, rfl⟩]; exact ds

/-- The counter was 41, and is 44; the results are 42, 43 and 44. -/
theorem C86_exact_concrete : ∃ (p : Bytes → Bytes) (tr' : List (Ev Op)) (x : State Bytes), p b!"x" = b!"a"
    ∧ PatchedUse tellers realHashes id ab p (counters none) (three (fun _ => .increment b!"x" 1 0) ++ tr') x
    ∧ ((x.line 0 b!"a").conn.conns 0).ended = true ∧ successes (x.line 0 b!"a").conn.log = 1
    ∧ (∃ e, (x.world (p b!"x")).find b!"x" = some e ∧ counterOf e.value = some 44)
    ∧ (∀ v, v ∈ Spec.Wired.numbers (three (fun _ => .increment b!"x" 1 0) ++ tr') ↔ v = 42 ∨ v = 43 ∨ v = 44) := by
  obtain ⟨p, hx, -, h⟩ := C67_concrete [] (by simp) [] (by decide)
  obtain ⟨tr', x, c, hs, hback, -, hio, h8, h9⟩ := three_again (fun _ => .increment b!"x" 1 0) b!"x" (fun _ => ⟨by decide, by decide⟩) (fun _ => rfl) h.pick
  have st := three_starts (fun _ => .increment b!"x" 1 0) hs
  obtain ⟨g1, -, g3⟩ := C86_counter_exact c (k := b!"x") (e := ⟨b!"41", 0, none, 1⟩) (m := 41) rfl rfl (by decide +kernel)
    (fun i o hi => by rw [st] at hi; exact ⟨0, (three_of (f := fun _ => .increment b!"x" 1 0) hi).1⟩) (by rw [st]; decide) hback.1 hio
  rw [st] at g1 g3
  refine ⟨p, tr', x, hx, c, h8, h9, g1, fun v => ?_⟩
  rw [g3]
  show (41 : Int) < v ∧ v ≤ 44 ↔ _
  omega

/-- Nobody had "y"; three add it, and one is told so. -/
theorem C86_lock_concrete : ∃ (p : Bytes → Bytes) (tr' : List (Ev Op)) (x : State Bytes),
    PatchedUse tellers realHashes id ab p (counters none) (three (fun i => .add { key := b!"y", value := if i = 0 then b!"me" else b!"you" }) ++ tr') x
    ∧ successes (x.line 0 b!"a").conn.log = 1
    ∧ (Spec.Wired.winners (three (fun i => .add { key := b!"y", value := if i = 0 then b!"me" else b!"you" }) ++ tr')).length = 1 := by
  obtain ⟨p, -, hy, h⟩ := C67_concrete [] (by simp) [] (by decide)
  generalize hf : (fun i : Nat => Op.add { key := b!"y", value := if i = 0 then b!"me" else b!"you" }) = f
  have e : ∀ i, f i = Op.add { key := b!"y", value := if i = 0 then b!"me" else b!"you" } := fun i => by rw [← hf]
  obtain ⟨tr', x, c, hs, hback, -, hio, -, h9⟩ := three_again f b!"y" (fun i => by
    rw [e]
    by_cases h0 : i = 0
    · rw [if_pos h0]; exact ⟨by decide, by decide, by decide, by decide⟩
    · rw [if_neg h0]; exact ⟨by decide, by decide, by decide, by decide⟩) (fun i => by rw [e]; rfl) h.pick
  have st := three_starts f hs
  exact ⟨p, tr', x, c, h9, C86_lock_won c (k := b!"y") rfl (fun i o hi => by
    rw [st] at hi
    rw [(three_of hi).1, e]
    exact ⟨_, rfl, rfl, rfl⟩) (by rw [st]; nofun) hback.1 hio⟩

end Rewired
end Verif
