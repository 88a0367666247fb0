import Verif.Pool.RingData
import Verif.Props.Ring
/-!
Concrete pools under the real SHA-1 and CRC-32 (`realHashes`): they meet the hypotheses of the
theorems of `Props/Ring.lean`, and they show what those theorems exclude is really false.
Servers are given by their names.
-/

namespace Verif
namespace Props
open Pool Spec

set_option maxRecDepth 100000

theorem pts_ab : points realHashes id [b!"a", b!"b"] =
    hashes_a.map (fun h => ⟨b!"a", h⟩) ++ hashes_b.map (fun h => ⟨b!"b", h⟩) := by
  simp only [points, List.flatMap_cons, List.flatMap_nil, serverNodes_a, serverNodes_b,
    List.append_nil]

theorem pts_abc : points realHashes id [b!"a", b!"b", b!"c"] =
    hashes_a.map (fun h => ⟨b!"a", h⟩) ++ (hashes_b.map (fun h => ⟨b!"b", h⟩)
      ++ hashes_c.map (fun h => ⟨b!"c", h⟩)) := by
  simp only [points, List.flatMap_cons, List.flatMap_nil, serverNodes_a, serverNodes_b,
    serverNodes_c, List.append_nil]

theorem strict_ab : strictly (sortNodes (points realHashes id [b!"a", b!"b"])) = true := by
  rw [pts_ab]; decide +kernel

theorem strict_abc : strictly (sortNodes (points realHashes id [b!"a", b!"b", b!"c"])) = true := by
  rw [pts_abc]; decide +kernel

/-- C01-C04: the pools of servers "a", "b" and "a", "b", "c" have no clash, so those theorems
apply to them. -/
theorem C01_pools_without_clash : NoClash (points realHashes id [b!"a", b!"b"])
    ∧ NoClash (points realHashes id [b!"a", b!"b", b!"c"]) :=
  ⟨strictly_noClash strict_ab, strictly_noClash strict_abc⟩

/-- C02: with servers "a" and "b", the key "01wzp" hits a point of "a" exactly, and yet every
ring picks "b", although no two points of this pool have the same hash. -/
theorem C02_wrong_server (r : Ring Bytes) (hr : IsRing realHashes id [b!"a", b!"b"] r) :
    (⟨b!"a", realHashes.crc32 b!"01wzp"⟩ : Node Bytes) ∈ points realHashes id [b!"a", b!"b"]
      ∧ r.pick realHashes b!"01wzp" = .ok b!"b" := by
  constructor
  · rw [pts_ab]; decide +kernel
  · apply pickF_ok 12
    rw [ring_unique hr strict_ab, pts_ab]
    decide +kernel

/-- C03 fails for exact hits: adding server "c" to "a" and "b" moves the key "o41vn" from "b"
to "a". -/
theorem C03_exact_hit_moves (r r' : Ring Bytes) (hr : IsRing realHashes id [b!"a", b!"b"] r)
    (hr' : IsRing realHashes id [b!"a", b!"b", b!"c"] r') :
    r.pick realHashes b!"o41vn" = .ok b!"b" ∧ r'.pick realHashes b!"o41vn" = .ok b!"a" := by
  constructor
  · apply pickF_ok 12
    rw [ring_unique hr strict_ab, pts_ab]
    decide +kernel
  · apply pickF_ok 12
    rw [ring_unique hr' strict_abc, pts_abc]
    decide +kernel

theorem pts_mc : points realHashes id [b!"mc122", b!"mc551"] =
    hashes_mc122.map (fun h => ⟨b!"mc122", h⟩) ++ hashes_mc551.map (fun h => ⟨b!"mc551", h⟩) := by
  simp only [points, List.flatMap_cons, List.flatMap_nil, serverNodes_mc122, serverNodes_mc551,
    List.append_nil]

theorem pts_mc' : points realHashes id [b!"mc551", b!"mc122"] =
    hashes_mc551.map (fun h => ⟨b!"mc551", h⟩) ++ hashes_mc122.map (fun h => ⟨b!"mc122", h⟩) := by
  simp only [points, List.flatMap_cons, List.flatMap_nil, serverNodes_mc122, serverNodes_mc551,
    List.append_nil]

/-- C04 needs its hypothesis: the servers "mc122" and "mc551" share a point, and both
"mc122" and "mc551" can be picked for one and the same key, depending on how the sort orders
that pair (a stable sort does so by configuration order). -/
theorem C04_clash : ∃ r r' : Ring Bytes, ∃ key : Bytes,
    IsRing realHashes id [b!"mc122", b!"mc551"] r ∧ IsRing realHashes id [b!"mc551", b!"mc122"] r'
      ∧ r.pick realHashes key = .ok b!"mc551" ∧ r'.pick realHashes key = .ok b!"mc122" := by
  refine ⟨⟨sortNodes (points realHashes id [b!"mc122", b!"mc551"]), _⟩,
    ⟨sortNodes (points realHashes id [b!"mc551", b!"mc122"]), _⟩, b!"aaaa",
    ⟨⟨sortNodes_perm _, sortNodes_sorted _⟩, rfl⟩, ⟨⟨sortNodes_perm _, sortNodes_sorted _⟩, rfl⟩,
    ?_, ?_⟩
  · apply pickF_ok 12
    rw [pts_mc]
    decide +kernel
  · apply pickF_ok 12
    rw [pts_mc']
    decide +kernel

end Props
end Verif
