import Verif.Props.RingWitness
import Verif.Props.ReplicaSched
/-!
Concrete replica pools that meet the hypotheses of the theorems of `Props/ReplicaCopies.lean`, and a
concrete run of each.
-/

namespace Verif
namespace Props
open Pool Spec Kv Cluster

set_option maxRecDepth 100000

/-- Primaries "a", "b" and secondary "c" under the real hash functions. -/
def abc : ReplicaPool Bytes :=
  { primary := ⟨sortNodes (points realHashes id [b!"a", b!"b"]), [b!"a", b!"b"]⟩,
    secondary := ⟨sortNodes (points realHashes id [b!"c"]), [b!"c"]⟩ }

theorem abc_rings : TwoRings realHashes id [b!"a", b!"b"] [b!"c"] abc where
  primary := ⟨⟨sortNodes_perm _, sortNodes_sorted _⟩, rfl⟩
  secondary := ⟨⟨sortNodes_perm _, sortNodes_sorted _⟩, rfl⟩
  some1 := by simp
  some2 := by simp
  disjoint := by decide

theorem abc_a : abc.primary.pick realHashes b!"x" = .ok b!"a" := by
  apply pickF_ok 12
  show pickF (sortNodes (points realHashes id [b!"a", b!"b"])) _ _ = _
  rw [pts_ab]
  decide +kernel

theorem abc_b : abc.primary.pick realHashes b!"y" = .ok b!"b" := by
  apply pickF_ok 12
  show pickF (sortNodes (points realHashes id [b!"a", b!"b"])) _ _ = _
  rw [pts_ab]
  decide +kernel

theorem abc_c (k : Bytes) : abc.secondary.pick realHashes k = .ok b!"c" := by
  obtain ⟨q, m, e⟩ := C05_member abc_rings.secondary abc_rings.some2 k
  rw [e]
  simp only [List.mem_singleton] at m
  rw [m]

/-- Three empty servers. -/
def empties : World Bytes := fun _ => emptyStore 1000

theorem empties_good : ∀ s, GoodMetaStore (empties s) :=
  fun _ => ⟨emptyStore_good 1000, fun _ _ h => by simp [empties, emptyStore] at h⟩

theorem empties_healthy (n : Nat) (hn : n < 2 ^ 62) : Healthy empties n :=
  ⟨fun s => ⟨empties_good s, by simp only [empties, emptyStore]; omega⟩, fun _ _ => rfl⟩

theorem empties_agree : Agree realHashes abc empties := fun _ _ _ _ _ => trivial

/-- C42: a history it applies to. -/
example : Agree realHashes abc (runReplica realHashes id abc id empties
    [(0, .set { key := b!"x", value := b!"1", expiration := 60 }), (5, .add { key := b!"y", value := b!"2" }),
     (1, .replace { key := b!"x", value := b!"3" }), (0, .delete b!"y"), (3, .get b!"x")]).2 := by
  refine C42_history abc_rings id _ ?_ (empties_healthy _ (by decide)) empties_agree
  intro ev hev
  simp only [List.mem_cons, List.not_mem_nil, or_false] at hev
  rcases hev with rfl | rfl | rfl | rfl | rfl
  · exact ⟨⟨⟨by decide, by decide, by decide, by decide⟩, by simp⟩, rfl⟩
  · exact ⟨⟨⟨by decide, by decide, by decide, by decide⟩, by simp⟩, rfl⟩
  · exact ⟨⟨⟨by decide, by decide, by decide, by decide⟩, by simp⟩, rfl⟩
  · exact (by decide : Key b!"y")
  · exact (by decide : Key b!"x")

/-- C44: with empty servers, Set x, Set y, Get y and Set y with the token just read fails, and leaves the
two copies of y different. -/
theorem C44_concrete : ∃ w2 it w3,
    runReplica realHashes id abc id empties
        [(0, .set { key := b!"x", value := b!"1" }), (0, .set { key := b!"y", value := b!"2" })] = ([.ok .done, .ok .done], w2)
      ∧ replicaCall realHashes id abc id w2 (.get b!"y") = (.ok (.item it), w2)
      ∧ replicaCall realHashes id abc id w2 (.set { it with value := b!"3", expiration := 0 }) = (.err .itemExists, w3)
      ∧ (w3 b!"b").find b!"y" ≠ none ∧ Holds (w3 b!"b") { it with value := b!"3", expiration := 0 } ∧ w3 b!"c" = w2 b!"c" :=
  C44_reachable abc_rings id (n := 0) (empties_healthy _ (by decide))
    { key := b!"x", value := b!"1" } { key := b!"y", value := b!"2" }
    ⟨⟨⟨by decide, by decide, by decide, by decide⟩, by simp⟩, rfl⟩
    ⟨⟨⟨by decide, by decide, by decide, by decide⟩, by simp⟩, rfl⟩
    (by decide) rfl rfl abc_a abc_b (by decide) (abc_c _) (abc_c _) rfl (by decide) b!"3" (by decide)

/-- Servers that all hold the counter 41 under "x", with the given expiry. -/
def counters (t : Option Nat) : World Bytes := fun _ => (emptyStore 1000).put b!"x" b!"41" 0 t

theorem counters_healthy (t : Option Nat) (ht : ∀ u, t = some u → u < 2 ^ 31) (n : Nat) (hn : n < 2 ^ 62) :
    Healthy (counters t) n := by
  refine ⟨fun s => ⟨⟨(emptyStore_good 1000).put _ _ _ _ (by simp [emptyStore]) (by decide) (by decide) ?_,
    SmallFlags.put (s := emptyStore 1000) (fun _ _ h => by simp [emptyStore] at h) _ _ _ _ (by decide)⟩, ?_⟩, fun _ _ => rfl⟩
  · exact fun x hx => Nat.lt_of_lt_of_le (ht x hx) (Nat.le_add_left _ _)
  · simp only [counters, Store.put, Store.write, emptyStore]; omega

theorem counters_agree (t : Option Nat) : Agree realHashes abc (counters t) := by
  intro k p q _ _
  show SameEntry ((counters t p).find k) ((counters t p).find k)
  cases (counters t p).find k with
  | none => trivial
  | some e => exact ⟨rfl, rfl, rfl⟩

/-- C43: the copies of a counter expiring in a minute stay equal; the copy of one that does not expire
is gone after one Increment. -/
theorem C43_concrete :
    (∃ w', replicaCall realHashes id abc id (counters (some 1060)) (.increment b!"x" 1 0) = (.ok (.num 42), w')
      ∧ Agree realHashes abc w')
    ∧ ∃ w', replicaCall realHashes id abc id (counters none) (.increment b!"x" 1 0) = (.ok (.num 42), w')
      ∧ (∃ e, (w' b!"a").find b!"x" = some e ∧ e.value = b!"42") ∧ (w' b!"c").find b!"x" = none := by
  constructor
  · have hw := counters_healthy (some 1060) (by simp) 2 (by decide)
    have h := replica_count abc_rings id (n := 0) hw true b!"x" 1 0 (by decide) (by decide) abc_a (abc_c _)
    have ha : (arithApi (counters (some 1060) b!"a") true b!"x" 1).1 = .ok (.num 42) := by decide +kernel
    rw [ha] at h
    obtain ⟨e, m, hf, _, _, hc⟩ := h
    refine ⟨_, hc, C43_agree abc_rings id (n := 0) hw (counters_agree _) true b!"x" 1 0 (by decide) (by decide) abc_a
      (by decide) hf (t := 1060) ?_ (by decide) hc⟩
    have : (counters (some 1060) b!"a").find b!"x" = some ⟨b!"41", 0, some 1060, 1⟩ := by decide +kernel
    rw [this] at hf
    cases hf; rfl
  · have hw := counters_healthy none (by simp) 2 (by decide)
    have h := replica_count abc_rings id (n := 0) hw true b!"x" 1 0 (by decide) (by decide) abc_a (abc_c _)
    have ha : (arithApi (counters none b!"a") true b!"x" 1).1 = .ok (.num 42) := by decide +kernel
    rw [ha] at h
    obtain ⟨e, m, hf, hm, hy, hc⟩ := h
    have : (counters none b!"a").find b!"x" = some ⟨b!"41", 0, none, 1⟩ := by decide +kernel
    rw [this] at hf
    cases hf
    have hm' : m = 41 := by
      have : counterOf b!"41" = some 41 := by decide +kernel
      rw [this] at hm; cases hm; rfl
    subst hm'
    have h3 := C43_count abc_rings id (n := 0) hw true b!"x" 1 0 (by decide) (by decide) abc_a (abc_c _) (by decide) hc
    obtain ⟨e', c, hf', _, _, _, hn⟩ := h3
    refine ⟨_, hc, ?_, ?_⟩
    · rw [update_other _ _ (by decide), update_same]
      exact ⟨⟨b!"42", 0, none, 2⟩, by decide +kernel, rfl⟩
    · apply hn
      rw [update_other _ _ (by decide), update_same] at hf'
      have : (Store.put (counters none b!"a") b!"x" (padTo (List.length b!"41") (natDec (count true 41 (Int.toNat 1)))) 0 none).find b!"x"
        = some ⟨b!"42", 0, none, 2⟩ := by decide +kernel
      rw [this] at hf'
      cases hf'; rfl

/-- C45: a situation it applies to, with every schedule that takes less than a minute. -/
example (moves : List Move) (hl : moves.length < 2 ^ 62) (ht : elapsed moves < 60) :
    CountingRun realHashes id [b!"a", b!"b"] [b!"c"] abc (counters (some 1060))
      [.increment b!"x" 1 0, .increment b!"x" 5 0, .decrement b!"x" 3 0, .set { key := b!"y", value := b!"v" }, .get b!"x"]
      b!"x" 41 b!"a" b!"c" moves where
  rings := abc_rings
  primary := abc_a
  secondary := abc_c _
  key := by decide
  kinds := by
    intro o ho
    simp only [List.mem_cons, List.not_mem_nil, or_false] at ho
    rcases ho with rfl | rfl | rfl | rfl | rfl
    · exact .inr ⟨rfl, by decide, by decide⟩
    · exact .inr ⟨rfl, by decide, by decide⟩
    · exact .inr ⟨rfl, by decide, by decide⟩
    · exact .inl ⟨⟨⟨by decide, by decide, by decide, by decide⟩, by simp⟩, by decide⟩
    · exact .inl (by decide : Key b!"x")
  small := by decide
  healthy := counters_healthy _ (by simp) _ hl
  counter := ⟨⟨b!"41", 0, some 1060, 1⟩, by decide +kernel, by decide +kernel, fun t h => by
    simp only [Option.some.injEq] at h
    show 1000 + elapsed moves < t
    omega⟩

/-- C45: the schedule that leaves the secondary behind, concretely: 41 + 1 + 5 on the primary, 41 + 1
on the secondary. -/
theorem C45_concrete : ∃ y, (Sys.start realHashes abc (counters (some 1060)) [.increment b!"x" 1 0, .increment b!"x" 5 0]).run
        [.run 0, .run 0, .run 1, .run 1, .run 1, .run 0] = y
      ∧ y.threads = [.ret (.ok (.num 42)), .ret (.ok (.num 47))]
      ∧ (∃ ep, (y.world b!"a").find b!"x" = some ep ∧ counterOf ep.value = some 47)
      ∧ ∃ eq, (y.world b!"c").find b!"x" = some eq ∧ counterOf eq.value = some 42 :=
  C45_secondary_stale abc_rings abc_a (abc_c _) (by decide) (counters_healthy _ (by simp) _ (by decide))
    (e := ⟨b!"41", 0, some 1060, 1⟩) (m := 41) (t := 1060) (by decide +kernel) (by decide +kernel) rfl (by decide) 1 5 0 0
    (by decide) (by decide) (by decide) (by decide) (by decide)

end Props
end Verif
