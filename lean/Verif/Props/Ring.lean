import Verif.Lemmas.Ring
/-!
C01-C05: the consistent-hashing ring.  `S` is any type of servers with any names, and the two
hash functions are arbitrary.
-/

namespace Verif
namespace Props
open Pool Spec

variable {S : Type} {H : Hashes} {name : S → Bytes}

theorem Owns.perm {a b : List (Node S)} (hp : a.Perm b) {h : Nat} {n : Node S}
    (ho : Owns a h n) : Owns b h n := by
  obtain ⟨hm, ho⟩ := ho
  refine ⟨hp.mem_iff.1 hm, ?_⟩
  rcases ho with ⟨h1, h2⟩ | ⟨h1, h2⟩
  · exact Or.inl ⟨h1, fun m hm => h2 m (hp.mem_iff.2 hm)⟩
  · exact Or.inr ⟨fun m hm => h1 m (hp.mem_iff.2 hm), fun m hm => h2 m (hp.mem_iff.2 hm)⟩

theorem points_ne_nil {servers : List S} (h : servers ≠ []) : points H name servers ≠ [] := by
  cases servers with
  | nil => exact absurd rfl h
  | cons s ss =>
    intro h0
    have := congrArg List.length h0
    simp [points, serverNodes, numberOfDivideServer] at this

theorem nodes_ne_nil {servers : List S} {r : Ring S} (hr : IsRing H name servers r)
    (h : servers ≠ []) : r.nodes ≠ [] := by
  intro h0
  have := hr.1.1
  rw [h0] at this
  exact points_ne_nil h this.nil_eq.symm

/-- Two owners of the same hash have the same hash themselves. -/
theorem Owns.hash_eq {pts : List (Node S)} {h : Nat} {n m : Node S} (hn : Owns pts h n)
    (hm : Owns pts h m) : n.hash = m.hash := by
  obtain ⟨hn0, hn⟩ := hn
  obtain ⟨hm0, hm⟩ := hm
  rcases hn with ⟨h1, h2⟩ | ⟨h1, h2⟩ <;> rcases hm with ⟨h3, h4⟩ | ⟨h3, h4⟩
  · exact Nat.le_antisymm (h4 n hn0 h1) (h2 m hm0 h3)
  · exact absurd h1 (h3 n hn0)
  · exact absurd h3 (h1 m hm0)
  · exact Nat.le_antisymm (h2 m hm0) (h4 n hn0)

/-- C01: for every key that does not hit a point exactly, `Pick` returns the server of a point
that owns the key's hash. -/
theorem C01_pick {servers : List S} {r : Ring S} (hr : IsRing H name servers r)
    (hne : servers ≠ []) (key : Bytes)
    (hmiss : ¬ Hit (points H name servers) (H.crc32 key)) :
    ∃ n, Owns (points H name servers) (H.crc32 key) n ∧ r.pick H key = .ok n.server := by
  obtain ⟨u, n, hget, hp, h | h⟩ := pick_spec (H := H) (key := key) hr.1.2 (nodes_ne_nil hr hne)
  · exact ⟨n, Owns.perm hr.1.1 h.2, hp⟩
  · obtain ⟨⟨m, hm, he⟩, _⟩ := h
    exact absurd ⟨m, hr.1.1.mem_iff.1 hm, he⟩ hmiss

/-- C01: when no two servers share a point, that server is determined: whatever point owns the
hash, its server is the one picked. -/
theorem C01_pick_unique {servers : List S} {r : Ring S} (hr : IsRing H name servers r)
    (hnc : NoClash (points H name servers)) (key : Bytes)
    (hmiss : ¬ Hit (points H name servers) (H.crc32 key)) (n : Node S)
    (hn : Owns (points H name servers) (H.crc32 key) n) : r.pick H key = .ok n.server := by
  have hne : servers ≠ [] := by
    rintro rfl
    have := hn.1
    simp [points] at this
  obtain ⟨m, hm, hp⟩ := C01_pick hr hne key hmiss
  rw [hp, hnc m hm.1 n hn.1 (Owns.hash_eq hm hn)]

/-- C02: on an exact hit `Pick` also returns the server of some point, one at or after the
point hit. -/
theorem C02_hit {servers : List S} {r : Ring S} (hr : IsRing H name servers r)
    (key : Bytes) (hhit : Hit (points H name servers) (H.crc32 key)) :
    ∃ n ∈ points H name servers, H.crc32 key ≤ n.hash ∧ r.pick H key = .ok n.server := by
  have hne : servers ≠ [] := by
    rintro rfl
    obtain ⟨m, hm, _⟩ := hhit
    simp [points] at hm
  obtain ⟨u, n, hget, hp, h | h⟩ := pick_spec (H := H) (key := key) hr.1.2 (nodes_ne_nil hr hne)
  · obtain ⟨m, hm, he⟩ := hhit
    exact absurd he (h.1 m (hr.1.1.mem_iff.2 hm))
  · exact ⟨n, hr.1.1.mem_iff.1 (List.mem_of_getElem? hget), h.2.1, hp⟩

/-- C02: the server of the point that is hit is returned when no point lies above it. -/
theorem C02_hit_last {servers : List S} {r : Ring S} (hr : IsRing H name servers r)
    (hnc : NoClash (points H name servers)) (key : Bytes) (n : Node S)
    (hn : n ∈ points H name servers) (hh : n.hash = H.crc32 key)
    (hlast : ∀ m ∈ points H name servers, m.hash ≤ n.hash) : r.pick H key = .ok n.server := by
  obtain ⟨m, hm, h1, h2⟩ := C02_hit hr key ⟨n, hn, hh⟩
  rw [h2, hnc m hm n hn (Nat.le_antisymm (hlast m hm) (hh ▸ h1))]

theorem points_perm {a b : List S} (h : a.Perm b) : (points H name a).Perm (points H name b) :=
  h.flatMap_right _

/-- C03: adding a server to a pool moves a key only to the added server (equivalently,
removing a server moves only its own keys), for every key that does not hit a point exactly. -/
theorem C03_add_server {servers servers' : List S} {s : S} {r r' : Ring S}
    (hr : IsRing H name servers r) (hr' : IsRing H name servers' r')
    (hadd : servers'.Perm (s :: servers)) (hne : servers ≠ [])
    (hnc : NoClash (points H name servers')) (key : Bytes)
    (hmiss : ¬ Hit (points H name servers') (H.crc32 key)) :
    r'.pick H key = r.pick H key ∨ r'.pick H key = .ok s := by
  have hmem : ∀ n, n ∈ points H name servers' ↔
      n ∈ serverNodes H name s ∨ n ∈ points H name servers := by
    intro n
    rw [(points_perm hadd).mem_iff]
    simp [points]
  have hmiss0 : ¬ Hit (points H name servers) (H.crc32 key) := by
    rintro ⟨m, hm, he⟩
    exact hmiss ⟨m, (hmem m).2 (Or.inr hm), he⟩
  obtain ⟨n', ho', hp'⟩ := C01_pick hr' (by rintro rfl; exact absurd hadd.length_eq (by simp)) key hmiss
  rcases (hmem n').1 ho'.1 with hs | hold
  · right
    rw [hp']
    simp only [serverNodes, List.mem_map] at hs
    obtain ⟨i, _, rfl⟩ := hs
    rfl
  · left
    obtain ⟨n, ho, hp⟩ := C01_pick hr hne key hmiss0
    have hown : Owns (points H name servers) (H.crc32 key) n' := by
      refine ⟨hold, ?_⟩
      rcases ho'.2 with ⟨h1, h2⟩ | ⟨h1, h2⟩
      · exact Or.inl ⟨h1, fun m hm => h2 m ((hmem m).2 (Or.inr hm))⟩
      · exact Or.inr ⟨fun m hm => h1 m ((hmem m).2 (Or.inr hm)),
          fun m hm => h2 m ((hmem m).2 (Or.inr hm))⟩
    rw [hp, hp', hnc n' ho'.1 n ((hmem n).2 (Or.inr ho.1)) (Owns.hash_eq hown ho)]

theorem search_congr {a b : List (Node S)} (h : a.map Node.hash = b.map Node.hash) (k : Nat)
    (lower upper : Int) : search a k lower upper = search b k lower upper := by
  induction hn : (upper - lower + 1).toNat using Nat.strongRecOn generalizing lower upper with
  | ind n ih =>
    rw [search_eq a, search_eq b]
    by_cases hle : lower ≤ upper
    · rw [if_pos hle, if_pos hle]
      by_cases hneg : (lower + upper) / 2 < 0
      · rw [if_pos hneg, if_pos hneg]
      · rw [if_neg hneg, if_neg hneg]
        have hg : a[((lower + upper) / 2).toNat]?.map Node.hash
            = b[((lower + upper) / 2).toNat]?.map Node.hash := by
          rw [← List.getElem?_map, ← List.getElem?_map, h]
        cases ha : a[((lower + upper) / 2).toNat]? with
        | none =>
          rw [ha] at hg
          cases hb : b[((lower + upper) / 2).toNat]? with
          | none => rfl
          | some y => rw [hb] at hg; simp at hg
        | some x =>
          rw [ha] at hg
          cases hb : b[((lower + upper) / 2).toNat]? with
          | none => rw [hb] at hg; simp at hg
          | some y =>
            rw [hb] at hg
            simp only [Option.map_some, Option.some.injEq] at hg
            dsimp only
            rw [hg, ih _ _ _ _ rfl, ih _ _ _ _ rfl] <;> omega
    · rw [if_neg hle, if_neg hle]

/-- C04: the order in which the servers are configured does not matter, nor does the order in
which the sort leaves points of equal hash, as long as no two servers share a point: two
processes configured with the same servers route every key (exact hits included) alike. -/
theorem C04_order {servers servers' : List S} {r r' : Ring S}
    (hr : IsRing H name servers r) (hr' : IsRing H name servers' r')
    (hperm : servers'.Perm servers) (hnc : NoClash (points H name servers)) (key : Bytes) :
    r'.pick H key = r.pick H key := by
  have hp : r'.nodes.Perm r.nodes := hr'.1.1.trans ((points_perm hperm).trans hr.1.1.symm)
  have hmap : r'.nodes.map Node.hash = r.nodes.map Node.hash := by
    refine List.Perm.eq_of_pairwise (le := (· ≤ ·)) (fun _ _ _ _ => Nat.le_antisymm) ?_ ?_ (hp.map _)
    · exact List.pairwise_map.2 hr'.1.2
    · exact List.pairwise_map.2 hr.1.2
  have hlen : r'.nodes.length = r.nodes.length := hp.length_eq
  unfold Ring.pick
  rw [search_congr hmap, hlen]
  cases search r.nodes (H.crc32 key) 0 ((r.nodes.length : Int) - 1) with
  | err e => rfl
  | panic => rfl
  | ok u =>
    simp only [Res.bind_ok, index]
    generalize (if u < 0 then (0 : Int) else u).toNat = j
    have hg : r'.nodes[j]?.map Node.hash = r.nodes[j]?.map Node.hash := by
      rw [← List.getElem?_map, ← List.getElem?_map, hmap]
    cases ha : r'.nodes[j]? with
    | none =>
      rw [ha] at hg
      cases hb : r.nodes[j]? with
      | none => rfl
      | some y => rw [hb] at hg; simp at hg
    | some x =>
      rw [ha] at hg
      cases hb : r.nodes[j]? with
      | none => rw [hb] at hg; simp at hg
      | some y =>
        rw [hb] at hg
        simp only [Option.map_some, Option.some.injEq] at hg
        simp only [Res.bind_ok, Res.pure_eq]
        rw [hnc x (hr.1.1.mem_iff.1 (hp.mem_iff.1 (List.mem_of_getElem? ha))) y
          (hr.1.1.mem_iff.1 (List.mem_of_getElem? hb)) hg]

/-- C05: a ring of `n` servers has exactly `200 n` points. -/
theorem C05_size {servers : List S} {r : Ring S} (hr : IsRing H name servers r) :
    r.nodes.length = 200 * servers.length := by
  rw [hr.1.1.length_eq]
  clear hr
  induction servers with
  | nil => rfl
  | cons s ss ih =>
    simp only [points, List.flatMap_cons, List.length_append, List.length_cons] at ih ⊢
    rw [ih]
    simp [serverNodes, numberOfDivideServer]
    omega

/-- C05: every configured server has exactly 200 of them. -/
theorem C05_share [DecidableEq S] {servers : List S} {r : Ring S} (hr : IsRing H name servers r)
    (hd : servers.Nodup) (s : S) (hs : s ∈ servers) :
    (r.nodes.filter (fun n => n.server = s)).length = 200 := by
  rw [(hr.1.1.filter _).length_eq]
  clear hr
  have hother : ∀ t : S, t ≠ s → (serverNodes H name t).filter (fun n => n.server = s) = [] := by
    intro t ht
    simp [serverNodes, ht]
  have hnone : ∀ ss : List S, s ∉ ss → (points H name ss).filter (fun n => n.server = s) = [] := by
    intro ss
    induction ss with
    | nil => intro _; rfl
    | cons t ts ih =>
      intro h
      simp only [List.mem_cons, not_or] at h
      simp only [points, List.flatMap_cons, List.filter_append] at ih ⊢
      rw [hother t (Ne.symm h.1), ih h.2]
      rfl
  induction servers with
  | nil => simp at hs
  | cons t ts ih =>
    obtain ⟨hd1, hd2⟩ := List.nodup_cons.1 hd
    simp only [points, List.flatMap_cons, List.filter_append, List.length_append] at ih hnone ⊢
    rcases List.mem_cons.1 hs with rfl | h
    · rw [hnone ts hd1, List.filter_eq_self.2]
      · simp [serverNodes, numberOfDivideServer]
      · intro n hn
        simp only [serverNodes, List.mem_map] at hn
        obtain ⟨i, _, rfl⟩ := hn
        simp
    · have hts : t ≠ s := by rintro rfl; exact hd1 h
      rw [hother t hts, ih hd2 h]
      rfl

/-- C05: `Pick` returns a configured server, for every key. -/
theorem C05_member {servers : List S} {r : Ring S} (hr : IsRing H name servers r)
    (hne : servers ≠ []) (key : Bytes) : ∃ s ∈ servers, r.pick H key = .ok s := by
  obtain ⟨u, n, hget, hp, -⟩ := pick_spec (H := H) (key := key) hr.1.2 (nodes_ne_nil hr hne)
  refine ⟨n.server, ?_, hp⟩
  have := hr.1.1.mem_iff.1 (List.mem_of_getElem? hget)
  simp only [points, List.mem_flatMap, serverNodes, List.mem_map] at this
  obtain ⟨s, hs, i, _, rfl⟩ := this
  exact hs

/-- C05: with no server configured, `Pick` panics for every key. -/
theorem C05_empty_panics {r : Ring S} (hr : IsRing H name [] r) (key : Bytes) :
    r.pick H key = .panic := by
  have hnil : r.nodes = [] := by
    have := hr.1.1
    exact List.Perm.eq_nil this
  unfold Ring.pick
  rw [hnil, search_eq]
  rfl

/-- C05: with distinct names, looking a configured server up by its name gives it back. -/
theorem C05_find {servers : List S} {r : Ring S} (hr : IsRing H name servers r)
    (hd : ∀ a ∈ servers, ∀ b ∈ servers, name a = name b → a = b) (s : S) (hs : s ∈ servers) :
    r.find name (name s) = some s := by
  unfold Ring.find
  rw [hr.2]
  cases hf : servers.reverse.find? (fun t => name t == name s) with
  | none =>
    have := List.find?_eq_none.1 hf s (List.mem_reverse.2 hs)
    simp at this
  | some t =>
    have h1 := List.find?_some hf
    have h2 := List.mem_of_find?_eq_some hf
    rw [hd t (List.mem_reverse.1 h2) s hs (by simpa using h1)]

/-- C05: in particular the picked server is found again. -/
theorem C05_find_picked {servers : List S} {r : Ring S} (hr : IsRing H name servers r)
    (hd : ∀ a ∈ servers, ∀ b ∈ servers, name a = name b → a = b) (key : Bytes) (s : S)
    (hp : r.pick H key = .ok s) : r.find name (name s) = some s := by
  by_cases hne : servers = []
  · subst hne
    rw [C05_empty_panics hr] at hp
    simp at hp
  · obtain ⟨t, ht, hpt⟩ := C05_member hr hne key
    rw [hp] at hpt
    cases hpt
    exact C05_find hr hd s ht

/-- A server list always has a ring. -/
theorem exists_ring (H : Hashes) (name : S → Bytes) (servers : List S) :
    ∃ r, IsRing H name servers r := by
  refine ⟨⟨(points H name servers).mergeSort (fun a b => a.hash ≤ b.hash), servers⟩,
    ⟨List.mergeSort_perm _ _, ?_⟩, rfl⟩
  have := List.pairwise_mergeSort (le := fun a b : Node S => decide (a.hash ≤ b.hash))
    (by intro a b c; simp; omega) (by intro a b; simp; omega) (points H name servers)
  simpa using this

end Props
end Verif
