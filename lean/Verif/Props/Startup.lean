import Verif.Props.RouterClients
import Verif.Props.ReplicaWitness
import Verif.Props.RingWitness
import Verif.Spec.Startup
import Verif.Spec.Outage
/-!
C61: the start of the router and what its configuration decides.
-/

namespace Verif
namespace Props
open Srv Spec Pool Cluster Kv Mc Proxy

/-! ### connecting -/

theorem connect_ok (dial : Nat → Bytes → Bool) : ∀ (ss : List ServerConf) (n : Nat),
    (∀ i s, ss[i]? = some s → dial (n + i) s.address = true) →
    ∃ l, connectServers dial n ss = (.ok l, ss.map ServerConf.address) ∧ StandAll l ss
      ∧ l.map Dialled.id = List.range' n ss.length
  | [], n, _ => ⟨[], rfl, .nil, rfl⟩
  | s :: ss, n, h => by
    obtain ⟨l, h1, h2, h3⟩ := connect_ok dial ss (n + 1) (fun i s hs => by
      have := h (i + 1) s hs
      rwa [show n + 1 + i = n + (i + 1) from by omega])
    refine ⟨⟨n, s.name, s.address⟩ :: l, ?_, .cons ⟨rfl, rfl⟩ h2, ?_⟩
    · rw [connectServers, if_pos (show dial n s.address = true from h 0 s rfl), h1]; rfl
    · rw [List.map_cons, h3]; rfl

theorem connect_dead (dial : Nat → Bytes → Bool) : ∀ (ss : List ServerConf) (n i : Nat),
    (∃ s, ss[i]? = some s ∧ dial (n + i) s.address = false) →
    (∀ j s, j < i → ss[j]? = some s → dial (n + j) s.address = true) →
    connectServers dial n ss = (.panic, (ss.map ServerConf.address).take (i + 1))
  | [], n, i, ⟨s, hs, _⟩, _ => by simp at hs
  | s :: ss, n, 0, ⟨t, ht, hd⟩, _ => by
    simp only [List.getElem?_cons_zero, Option.some.injEq] at ht
    subst ht
    rw [connectServers, if_neg (by rw [show dial n s.address = false from hd]; decide)]
    rfl
  | s :: ss, n, i + 1, ⟨t, ht, hd⟩, h => by
    have hr := connect_dead dial ss (n + 1) i ⟨t, ht, by rwa [show n + 1 + i = n + (i + 1) from by omega]⟩
      (fun j u hj hu => by
        have := h (j + 1) u (by omega) hu
        rwa [show n + 1 + j = n + (j + 1) from by omega])
    rw [connectServers, if_pos (show dial n s.address = true from h 0 s (by omega) rfl), hr]
    rfl

/-- Either all dials succeed or there is a first one that does not. -/
theorem reach_or_dead (dial : Nat → Bytes → Bool) : ∀ (ss : List ServerConf) (n : Nat),
    (∀ i s, ss[i]? = some s → dial (n + i) s.address = true)
    ∨ ∃ i, (∃ s, ss[i]? = some s ∧ dial (n + i) s.address = false)
      ∧ ∀ j s, j < i → ss[j]? = some s → dial (n + j) s.address = true
  | [], n => .inl (fun i s h => by simp at h)
  | s :: ss, n => by
    cases hd : dial n s.address with
    | false => exact .inr ⟨0, ⟨s, rfl, hd⟩, fun j _ hj => absurd hj (by omega)⟩
    | true =>
      have hz : ∀ u, (s :: ss)[0]? = some u → dial (n + 0) u.address = true := by
        intro u hu
        simp only [List.getElem?_cons_zero, Option.some.injEq] at hu
        subst hu; exact hd
      rcases reach_or_dead dial ss (n + 1) with h | ⟨i, ⟨t, h1, h2⟩, h3⟩
      · refine .inl fun i u hu => ?_
        cases i with
        | zero => exact hz u hu
        | succ i =>
          have := h i u hu
          rwa [show n + 1 + i = n + (i + 1) from by omega] at this
      · refine .inr ⟨i + 1, ⟨t, h1, by rwa [show n + 1 + i = n + (i + 1) from by omega] at h2⟩, fun j u hj hu => ?_⟩
        cases j with
        | zero => exact hz u hu
        | succ j =>
          have := h3 j u (by omega) hu
          rwa [show n + 1 + j = n + (j + 1) from by omega] at this

theorem all_ok {dial : Nat → Bytes → Bool} {c : Config} (h : AllReachable dial c) :
    ∃ ps qs, connectAll dial c = (.ok (ps, qs), (configured c).map ServerConf.address)
      ∧ StandAll ps c.primary ∧ StandAll qs c.secondary
      ∧ (ps ++ qs).map Dialled.id = List.range (configured c).length := by
  obtain ⟨ps, h1, h2, h3⟩ := connect_ok dial c.primary 0 (fun i s hs => by
    rw [Nat.zero_add]
    exact h i s (by
      rw [configured, List.getElem?_append_left (List.getElem?_eq_some_iff.1 hs).1]; exact hs))
  obtain ⟨qs, h4, h5, h6⟩ := connect_ok dial c.secondary c.primary.length (fun i s hs => by
    refine h _ s ?_
    rw [configured, List.getElem?_append_right (by omega), Nat.add_sub_cancel_left]; exact hs)
  refine ⟨ps, qs, ?_, h2, h5, ?_⟩
  · unfold connectAll
    rw [h1]; dsimp only; rw [h4]
    simp [configured]
  · rw [List.map_append, h3, h6, configured, List.length_append, List.range_eq_range', ← List.range'_append_1]
    rw [Nat.zero_add]

theorem all_dead {dial : Nat → Bytes → Bool} {c : Config} {i : Nat} (h : FirstDead dial c i) :
    connectAll dial c = (.panic, ((configured c).map ServerConf.address).take (i + 1)) := by
  obtain ⟨⟨s, hs, hd⟩, hb⟩ := h
  by_cases hi : i < c.primary.length
  · have hs' : c.primary[i]? = some s := by
      rwa [configured, List.getElem?_append_left hi] at hs
    have := connect_dead dial c.primary 0 i ⟨s, hs', by rwa [Nat.zero_add]⟩ (fun j u hj hu => by
      rw [Nat.zero_add]
      exact hb j u hj (by rw [configured, List.getElem?_append_left (by omega)]; exact hu))
    unfold connectAll
    rw [this]; dsimp only
    rw [configured, List.map_append, List.take_append_of_le_length (by rw [List.length_map]; omega)]
  · have hs' : c.secondary[i - c.primary.length]? = some s := by
      rwa [configured, List.getElem?_append_right (by omega)] at hs
    obtain ⟨ps, h1, _, _⟩ := connect_ok dial c.primary 0 (fun j u hu => by
      have hj := (List.getElem?_eq_some_iff.1 hu).1
      rw [Nat.zero_add]
      exact hb j u (by omega) (by rw [configured, List.getElem?_append_left hj]; exact hu))
    have h2 := connect_dead dial c.secondary c.primary.length (i - c.primary.length)
      ⟨s, hs', by rwa [show c.primary.length + (i - c.primary.length) = i from by omega]⟩ (fun j u hj hu => by
        refine hb _ u (by omega) ?_
        rw [configured, List.getElem?_append_right (by omega), Nat.add_sub_cancel_left]; exact hu)
    unfold connectAll
    rw [h1]; dsimp only; rw [h2]; dsimp only
    have hlen : (c.primary.map ServerConf.address).length ≤ i + 1 := by rw [List.length_map]; omega
    rw [configured, List.map_append, List.take_append, List.take_of_length_le hlen, List.length_map]
    rw [show i + 1 - c.primary.length = i - c.primary.length + 1 from by omega]

/-! ### the start -/

variable {H : Hashes} {dial : Nat → Bytes → Bool} {listen : Bool} {c : Config} {a : List Bytes} {st : Start}

/-- C61: with all servers reachable and the port free, the process serves; it has dialled every server of
the configuration once, primaries first, in their order, and each of the two rings is over the
connections of its role, one for each server configured, under the names configured. -/
theorem C61_serves (hd : AllReachable dial c) (hl : listen = true) :
    (∃ r, Main H dial listen (some c) ((configured c).map ServerConf.address) (.serving r))
    ∧ ∀ a st, Main H dial listen (some c) a st →
      a = (configured c).map ServerConf.address
      ∧ ∃ r ps qs, st = .serving r ∧ IsRing H Dialled.name ps r.primary ∧ IsRing H Dialled.name qs r.secondary
        ∧ StandAll ps c.primary ∧ StandAll qs c.secondary
        ∧ (ps ++ qs).map Dialled.id = List.range (configured c).length := by
  obtain ⟨ps, qs, h1, h2, h3, h4⟩ := all_ok hd
  obtain ⟨rp, hrp⟩ := exists_ring H Dialled.name ps
  obtain ⟨rq, hrq⟩ := exists_ring H Dialled.name qs
  refine ⟨⟨⟨rp, rq⟩, .serves c _ (ps, qs) ⟨rp, rq⟩ h1 hl hrp hrq⟩, fun a st hm => ?_⟩
  cases hm with
  | noServer _ _ h ha => exact absurd h1 (by rw [← ha, h1] at h; exact fun _ => h _ rfl)
  | noPort _ _ x h hl' => rw [hl] at hl'; cases hl'
  | serves _ _ x r h hl' hp hs =>
    rw [h1] at h
    cases h
    exact ⟨rfl, r, ps, qs, rfl, hp, hs, h2, h3, h4⟩

/-- C61: with all servers reachable and the port taken, the process exits. -/
theorem C61_exits (hd : AllReachable dial c) (hl : listen = false) :
    Main H dial listen (some c) a st ↔ a = (configured c).map ServerConf.address ∧ st = .exited := by
  obtain ⟨ps, qs, h1, -⟩ := all_ok hd
  constructor
  · intro hm
    cases hm with
    | noServer _ _ h ha => exact absurd h1 (by rw [← ha, h1] at h; exact fun _ => h _ rfl)
    | noPort _ _ x h hl' => rw [h1] at h; cases h; exact ⟨rfl, rfl⟩
    | serves _ _ x r h hl' hp hs => rw [hl] at hl'; cases hl'
  · rintro ⟨rfl, rfl⟩
    exact .noPort c _ _ h1 hl

/-- C61: one unreachable server, primary or secondary, keeps the router from starting: the process
panics, without trying the servers configured after it, whether or not the port is free. -/
theorem C61_one_dead {i : Nat} (hd : FirstDead dial c i) :
    Main H dial listen (some c) a st ↔ a = ((configured c).map ServerConf.address).take (i + 1) ∧ st = .panicked := by
  have h1 := all_dead hd
  constructor
  · intro hm
    cases hm with
    | noServer _ _ h ha => rw [h1] at ha; exact ⟨ha.symm, rfl⟩
    | noPort _ _ x h hl' => rw [h1] at h; cases h
    | serves _ _ x r h hl' hp hs => rw [h1] at h; cases h
  · rintro ⟨rfl, rfl⟩
    exact .noServer c _ (fun x h => by rw [h1] at h; cases h) (by rw [h1])

/-- C61: these are all the cases. -/
theorem C61_cases (dial : Nat → Bytes → Bool) (c : Config) : AllReachable dial c ∨ ∃ i, FirstDead dial c i := by
  rcases reach_or_dead dial (configured c) 0 with h | ⟨i, h1, h2⟩
  · exact .inl fun i s hs => by have := h i s hs; rwa [Nat.zero_add] at this
  · refine .inr ⟨i, ?_, fun j s hj hs => by have := h2 j s hj hs; rwa [Nat.zero_add] at this⟩
    obtain ⟨s, hs, hd⟩ := h1
    exact ⟨s, hs, by rwa [Nat.zero_add] at hd⟩

/-- C61: without a readable configuration the process panics, having dialled nothing. -/
theorem C61_no_config : Main H dial listen none a st ↔ a = [] ∧ st = .panicked := by
  constructor
  · intro h; cases h; exact ⟨rfl, rfl⟩
  · rintro ⟨rfl, rfl⟩; exact .noConfig

theorem serving_inv {r : ReplicaPool Dialled} (hm : Main H dial listen (some c) a (.serving r)) :
    AllReachable dial c ∧ listen = true := by
  rcases C61_cases dial c with h | ⟨i, h⟩
  · refine ⟨h, ?_⟩
    cases listen with
    | true => rfl
    | false => have := ((C61_exits h rfl).1 hm).2; cases this
  · have := ((C61_one_dead h).1 hm).2; cases this

theorem serving_rings {r : ReplicaPool Dialled} (hm : Main H dial listen (some c) a (.serving r)) :
    ∃ ps qs, IsRing H Dialled.name ps r.primary ∧ IsRing H Dialled.name qs r.secondary
        ∧ StandAll ps c.primary ∧ StandAll qs c.secondary
        ∧ (ps ++ qs).map Dialled.id = List.range (configured c).length := by
  obtain ⟨h1, h2⟩ := serving_inv hm
  obtain ⟨_, r', ps, qs, h, hr⟩ := (C61_serves (H := H) h1 h2).2 _ _ hm
  cases h
  exact ⟨ps, qs, hr⟩

/-- C61: the router starts exactly when every server can be reached and the port is free. -/
theorem C61_iff : (∃ a r, Main H dial listen (some c) a (.serving r)) ↔ AllReachable dial c ∧ listen = true :=
  ⟨fun ⟨_, _, h⟩ => serving_inv h, fun ⟨h1, h2⟩ => by
    obtain ⟨⟨r, h⟩, -⟩ := C61_serves (H := H) h1 h2
    exact ⟨_, r, h⟩⟩

theorem stand_nil {l : List Dialled} {ss : List ServerConf} (h : StandAll l ss) : l = [] ↔ ss = [] := by
  cases h <;> simp

theorem stand_names {l : List Dialled} {ss : List ServerConf} (h : StandAll l ss) :
    l.map Dialled.name = ss.map ServerConf.name := by
  induction h with
  | nil => rfl
  | cons h _ ih => rw [List.map_cons, List.map_cons, h.1, ih]

/-- C61: a serving router with servers in both roles has the two disjoint rings that C42–C60 are about. -/
theorem C61_two_rings {r : ReplicaPool Dialled} (hm : Main H dial listen (some c) a (.serving r))
    (h1 : c.primary ≠ []) (h2 : c.secondary ≠ []) : ∃ ps qs, TwoRings H Dialled.name ps qs r
      ∧ StandAll ps c.primary ∧ StandAll qs c.secondary := by
  obtain ⟨ps, qs, hp, hq, sp, sq, hid⟩ := serving_rings hm
  refine ⟨ps, qs, ⟨hp, hq, fun h => h1 ((stand_nil sp).1 h), fun h => h2 ((stand_nil sq).1 h), fun s hs hs' => ?_⟩, sp, sq⟩
  have hnd : ((ps ++ qs).map Dialled.id).Nodup := by rw [hid]; exact List.nodup_range
  rw [List.map_append, List.nodup_append] at hnd
  exact hnd.2.2 s.id (List.mem_map.2 ⟨s, hs, rfl⟩) s.id (List.mem_map.2 ⟨s, hs', rfl⟩) rfl

/-! ### placement -/

/-- The nodes by name. -/
def namedRing {S : Type} (name : S → Bytes) (r : Ring S) : Ring Bytes :=
  ⟨r.nodes.map fun n => ⟨name n.server, n.hash⟩, r.servers.map name⟩

theorem named_points {S : Type} (H : Hashes) (name : S → Bytes) (ss : List S) :
    (points H name ss).map (fun n => (⟨name n.server, n.hash⟩ : Node Bytes)) = points H id (ss.map name) := by
  unfold points
  induction ss with
  | nil => rfl
  | cons s ss ih =>
    rw [List.flatMap_cons, List.map_append, ih, List.map_cons, List.flatMap_cons]
    rw [serverNodes, List.map_map]
    rfl

theorem named_ring {S : Type} {H : Hashes} {name : S → Bytes} {ss : List S} {r : Ring S} (hr : IsRing H name ss r) :
    IsRing H id (ss.map name) (namedRing name r) := by
  refine ⟨⟨?_, ?_⟩, by rw [namedRing, hr.2]⟩
  · rw [← named_points]
    exact hr.1.1.map _
  · exact List.pairwise_map.2 hr.1.2

theorem search_named {S T : Type} {a : List (Node S)} {b : List (Node T)} (h : a.map Node.hash = b.map Node.hash) (k : Nat)
    (lower upper : Int) : search a k lower upper = search b k lower upper := by
  induction hn : (upper - lower + 1).toNat using Nat.strongRecOn generalizing lower upper with
  | ind n ih =>
    rw [search_eq a, search_eq b]
    by_cases hle : lower ≤ upper
    · rw [if_pos hle, if_pos hle]
      by_cases hneg : (lower + upper) / 2 < 0
      · rw [if_pos hneg, if_pos hneg]
      · rw [if_neg hneg, if_neg hneg]
        have hg : a[((lower + upper) / 2).toNat]?.map Node.hash
            = b[((lower + upper) / 2).toNat]?.map Node.hash := by
          rw [← List.getElem?_map, ← List.getElem?_map, h]
        cases ha : a[((lower + upper) / 2).toNat]? with
        | none =>
          rw [ha] at hg
          cases hb : b[((lower + upper) / 2).toNat]? with
          | none => rfl
          | some y => rw [hb] at hg; simp at hg
        | some x =>
          rw [ha] at hg
          cases hb : b[((lower + upper) / 2).toNat]? with
          | none => rw [hb] at hg; simp at hg
          | some y =>
            rw [hb] at hg
            simp only [Option.map_some, Option.some.injEq] at hg
            dsimp only
            rw [hg, ih _ _ _ _ rfl, ih _ _ _ _ rfl] <;> omega
    · rw [if_neg hle, if_neg hle]

theorem pick_named (H : Hashes) (r : Ring Dialled) (k : Bytes) :
    (namedRing Dialled.name r).pick H k = nameOf (r.pick H k) := by
  have hm : (namedRing Dialled.name r).nodes.map Node.hash = r.nodes.map Node.hash := by
    unfold namedRing; rw [List.map_map]; rfl
  have hl : (namedRing Dialled.name r).nodes.length = r.nodes.length := by
    unfold namedRing; rw [List.length_map]
  unfold Ring.pick
  rw [search_named hm, hl]
  cases search r.nodes (H.crc32 k) 0 (↑r.nodes.length - 1) with
  | err e => rfl
  | panic => rfl
  | ok u =>
    show (index (namedRing Dialled.name r).nodes (if u < 0 then 0 else u).toNat >>= fun n => pure n.server)
      = nameOf (index r.nodes (if u < 0 then 0 else u).toNat >>= fun n => pure n.server)
    generalize (if u < 0 then 0 else u).toNat = j
    unfold index namedRing
    rw [List.getElem?_map]
    cases r.nodes[j]? <;> rfl

/-- C61: which servers a key goes to depends only on the names configured for each role: two routers with
the same names, in any order, at whatever addresses, send every key to servers of the same name, if
no two servers of a role share a point. -/
theorem C61_placement {dial' : Nat → Bytes → Bool} {listen' : Bool} {c' : Config} {a' : List Bytes}
    {r r' : ReplicaPool Dialled} (hm : Main H dial listen (some c) a (.serving r))
    (hm' : Main H dial' listen' (some c') a' (.serving r'))
    (hp : (c'.primary.map ServerConf.name).Perm (c.primary.map ServerConf.name))
    (hq : (c'.secondary.map ServerConf.name).Perm (c.secondary.map ServerConf.name))
    (np : NoClash (points H id (c.primary.map ServerConf.name)))
    (nq : NoClash (points H id (c.secondary.map ServerConf.name))) (k : Bytes) :
    nameOf (r'.primary.pick H k) = nameOf (r.primary.pick H k)
    ∧ nameOf (r'.secondary.pick H k) = nameOf (r.secondary.pick H k) := by
  obtain ⟨ps, qs, h1, h2, sp, sq, -⟩ := serving_rings hm
  obtain ⟨ps', qs', h1', h2', sp', sq', -⟩ := serving_rings hm'
  have a1 := named_ring h1
  have a2 := named_ring h2
  have b1 := named_ring h1'
  have b2 := named_ring h2'
  rw [stand_names sp] at a1
  rw [stand_names sq] at a2
  rw [stand_names sp'] at b1
  rw [stand_names sq'] at b2
  rw [← pick_named, ← pick_named, ← pick_named, ← pick_named]
  exact ⟨C04_order a1 b1 hp np k, C04_order a2 b2 hq nq k⟩

/-! ### configurations without servers in a role -/

theorem crashes_of {σ α : Type} {h : Handler σ} {p : Protocol} {s s' : σ} {c : Call α} {req : Request}
    (ha : Arrives p c req) (hh : h s req = (.panic, s')) : Crashes h p s c s' := by
  obtain ⟨w, hw, hread⟩ := ha
  refine ⟨w, hw, fun q rest hq => ?_⟩
  rw [serve_eq, hread q hq rest]
  dsimp only
  unfold serveStep
  rw [hh]
  exact ⟨rfl, rfl, rfl⟩

theorem small_primaries {S : Type} [DecidableEq S] (H : Hashes) (r : ReplicaPool S) {w : World S} {n : Nat} (hw : Healthy w n) (t : Nat) :
    Small (onPrimaries H r t w) := by
  intro k v x h
  unfold onPrimaries at h
  dsimp only at h
  cases hp : r.primary.pick H k with
  | err e => rw [hp] at h; cases h
  | panic => rw [hp] at h; cases h
  | ok p =>
    rw [hp] at h
    dsimp only at h
    cases hd : (w p).data k with
    | none => rw [hd] at h; cases h
    | some e =>
      rw [hd] at h
      cases h
      exact ((hw.1 p).1.good.entry k e hd).2.2.1

/-- Only the primaries matter for a Get. -/
theorem get_primary {S : Type} [DecidableEq S] {H : Hashes} {name : S → Bytes} {r : ReplicaPool S} {w : World S} {n : Nat}
    (hw : Healthy w n) (t : Nat) (ht : ∀ s, (w s).now = t) (req : Request) (ho : req.opcode = opGet) (hk : Key req.key)
    {p : S} (hp : r.primary.pick H req.key = .ok p) :
    router H name r w req = ((shelfAnswer (onPrimaries H r t w) req).1, w) := by
  have hv := shelf_value (w := w) hp (ht p)
  have e1 := callOn_meta p (.get req.key) outItem w (hw.1 p).1 hk
  have e2 : Cluster.get (metaEnv H name) r req.key w = callOn (fun _ => metaCall) p (.get req.key) outItem w := by
    unfold Cluster.get
    rw [onPicked_meta H name r.primary _ p hp]
    rfl
  show serveRequest (metaEnv H name) r w req = _
  unfold serveRequest shelfAnswer
  rw [if_pos ho, if_pos ho, e2, e1, hv]
  simp only [metaApi]
  cases (w p).find req.key with
  | none => simp only [update_id]; rfl
  | some e => simp only [update_id]; rfl

/-- The state after the primary has stored. -/
theorem shelf_put_one {S : Type} [DecidableEq S] {H : Hashes} {r : ReplicaPool S} {w : World S} {p : S} {i : Item} (t : Nat)
    (ht : (w p).now = t) (hp : r.primary.pick H i.key = .ok p) :
    onPrimaries H r t (World.update w p ((w p).put i.key i.value (metaFlagsOf i) (expiryOf (w p).now i.expiration)))
      = (onPrimaries H r t w).put i.key i.value i.expiration := by
  unfold onPrimaries Shelf.put
  simp only [Shelf.mk.injEq, and_true]
  funext k
  by_cases hk : k = i.key
  · subst hk
    rw [if_pos rfl, hp]
    dsimp only
    rw [update_same]
    simp [Store.put, Store.write, ht]
  · rw [if_neg hk]
    cases hp' : r.primary.pick H k with
    | err e => rfl
    | panic => rfl
    | ok p' =>
      dsimp only
      by_cases h2 : p' = p
      · subst h2
        rw [update_same]
        simp [Store.put, Store.write, hk]
      · rw [update_other _ _ h2]

/-- C61: a router configured without secondary servers starts (C61_iff) and answers every Get, but the
first Set stores its value on the primary and then takes the process down. -/
theorem C61_no_secondary {r : ReplicaPool Dialled} (hm : Main H dial listen (some c) a (.serving r))
    (h1 : c.primary ≠ []) (h2 : c.secondary = []) {w : World Dialled} {n : Nat} (hw : Healthy w n)
    (t : Nat) (ht : ∀ s, (w s).now = t) (u : Use) (hu : u.Good) :
    (u.writes = false → Served (router H Dialled.name r) u.protocol w u.call (u.outcome (onPrimaries H r t w)).1 w)
    ∧ (u.writes = true → ∃ w', Crashes (router H Dialled.name r) u.protocol w u.call w'
        ∧ onPrimaries H r t w' = (u.outcome (onPrimaries H r t w)).2) := by
  obtain ⟨ps, qs, hp, hq, sp, sq, -⟩ := serving_rings hm
  rw [h2] at sq
  have := (stand_nil sq).2 rfl
  subst this
  have hg := use_request u hu
  obtain ⟨res, g1, g2, g3⟩ := use_answer u hu (small_primaries H r hw t)
  obtain ⟨p, -, hpick⟩ := C05_member hp (fun h => h1 ((stand_nil sp).1 h)) (useReq u).key
  constructor
  · intro hs
    have ho : (useReq u).opcode = opGet := by cases u <;> first | rfl | cases hs
    have e := get_primary (name := Dialled.name) hw t ht (useReq u) ho (hg.1 ho) hpick
    rw [g1] at e
    exact served_of (use_arrives u hu) e g2
  · intro hs
    have ho : (useReq u).opcode = opSet := by cases u <;> first | rfl | cases hs
    obtain ⟨o, ho1, ho2, ho3⟩ := hg.2 ho
    have hi : itemOf (useReq u) o = { key := (useReq u).key, value := (useReq u).value, flags := (useReq u).flags, expiration := o.expiration } := by
      unfold itemOf; rw [ho2]
    rw [← hi] at ho3
    have hcas : (itemOf (useReq u) o).cas = 0 := ho2
    have e1 := callOn_meta p (.set (itemOf (useReq u) o)) outDone w (hw.1 p).1 ho3
    rw [set_plain _ _ hcas] at e1
    have e2 : Cluster.set (metaEnv H Dialled.name) r (itemOf (useReq u) o) w
        = (.panic, World.update w p ((w p).put (useReq u).key (useReq u).value (metaFlagsOf (itemOf (useReq u) o)) (expiryOf (w p).now o.expiration))) := by
      unfold Cluster.set
      rw [onPicked_meta H Dialled.name r.primary (itemOf (useReq u) o).key p hpick]
      refine (Act.bind_of_ok e1).trans ?_
      unfold onPicked
      have : r.secondary.pick (metaEnv H Dialled.name).H (itemOf (useReq u) o).key = .panic := C05_empty_panics hq _
      rw [this]
      rfl
    refine ⟨World.update w p ((w p).put (useReq u).key (useReq u).value (metaFlagsOf (itemOf (useReq u) o)) (expiryOf (w p).now o.expiration)),
      crashes_of (use_arrives u hu) ?_, ?_⟩
    · show serveRequest (metaEnv H Dialled.name) r w (useReq u) = _
      unfold serveRequest
      rw [if_neg (by rw [ho]; decide), if_pos ho, ho1]
      dsimp only
      rw [e2]
    · rw [← g3]
      have := shelf_put_one (H := H) (r := r) (i := itemOf (useReq u) o) t (ht p) hpick
      refine this.trans ?_
      unfold shelfAnswer
      rw [if_neg (by rw [ho]; decide), if_pos ho, ho1]
      rfl

/-- C61: a router configured without primary servers starts as well, and the first call, Get or Set, takes
the process down with nothing stored. -/
theorem C61_no_primary {r : ReplicaPool Dialled} (hm : Main H dial listen (some c) a (.serving r))
    (h1 : c.primary = []) (w : World Dialled) (u : Use) (hu : u.Good) :
    Crashes (router H Dialled.name r) u.protocol w u.call w := by
  obtain ⟨ps, qs, hp, hq, sp, sq, -⟩ := serving_rings hm
  rw [h1] at sp
  have := (stand_nil sp).2 rfl
  subst this
  have hpick : ∀ k, r.primary.pick (metaEnv H Dialled.name).H k = .panic := fun k => C05_empty_panics hp k
  have hg := use_request u hu
  refine crashes_of (use_arrives u hu) ?_
  show serveRequest (metaEnv H Dialled.name) r w (useReq u) = _
  unfold serveRequest
  by_cases ho : (useReq u).opcode = opGet
  · rw [if_pos ho]
    unfold Cluster.get onPicked
    rw [hpick]; rfl
  · have ho' : (useReq u).opcode = opSet := by cases u <;> first | rfl | exact absurd rfl ho
    obtain ⟨o, ho1, -⟩ := hg.2 ho'
    rw [if_neg ho, if_pos ho', ho1]
    dsimp only
    unfold Cluster.set onPicked
    rw [hpick]; rfl

/-! ### concrete configurations -/

/-- Two primaries and a secondary. -/
def someConfig : Config where
  primary := [⟨b!"a", b!"10.0.0.1", 11211⟩, ⟨b!"b", b!"10.0.0.2", 11211⟩]
  secondary := [⟨b!"c", b!"10.0.0.3", 11211⟩]

/-- The same names in another order at other addresses. -/
def movedConfig : Config where
  primary := [⟨b!"b", b!"localhost", 11212⟩, ⟨b!"a", b!"localhost", 11211⟩]
  secondary := [⟨b!"c", b!"localhost", 11213⟩]

theorem one_server_clash (H : Hashes) {S : Type} (name : S → Bytes) (s : S) : NoClash (points H name [s]) := by
  have : ∀ n ∈ points H name [s], n.server = s := by
    intro n hn
    simp only [points, List.flatMap_cons, List.flatMap_nil, List.append_nil, serverNodes, List.mem_map] at hn
    obtain ⟨i, -, rfl⟩ := hn
    rfl
  intro a ha b hb _
  rw [this a ha, this b hb]

/-- C61: these two configurations, if the servers are there, give routers that keep key x on the server
called a and key y on the one called b. -/
theorem C61_concrete (up : Nat → Bytes → Bool) (hup : ∀ n a, up n a = true) :
    (∃ a r, Main realHashes up true (some someConfig) a (.serving r))
    ∧ (∃ a r, Main realHashes up true (some movedConfig) a (.serving r))
    ∧ ∀ cf a r, (cf = someConfig ∨ cf = movedConfig) → Main realHashes up true (some cf) a (.serving r) →
      nameOf (r.primary.pick realHashes b!"x") = .ok b!"a" ∧ nameOf (r.primary.pick realHashes b!"y") = .ok b!"b" := by
  refine ⟨C61_iff.2 ⟨fun _ _ _ => hup _ _, rfl⟩, C61_iff.2 ⟨fun _ _ _ => hup _ _, rfl⟩, fun cf a r hcf hm => ?_⟩
  obtain ⟨ps, qs, h1, -, sp, -⟩ := serving_rings hm
  have a1 := named_ring h1
  rw [stand_names sp] at a1
  have hperm : (cf.primary.map ServerConf.name).Perm [b!"a", b!"b"] := by
    rcases hcf with rfl | rfl
    · exact .refl _
    · exact .swap _ _ _
  have hk := fun k => C04_order abc_rings.primary a1 hperm C01_pools_without_clash.1 k
  rw [← pick_named, ← pick_named, hk, hk, abc_a, abc_b]
  exact ⟨rfl, rfl⟩

/-- C61: an instance of C61_one_dead: the secondary is unreachable. -/
theorem C61_dead_concrete : FirstDead (fun _ a => a != b!"10.0.0.3:11211") someConfig 2 := by
  refine ⟨⟨⟨b!"c", b!"10.0.0.3", 11211⟩, rfl, by decide +kernel⟩, fun j s hj hs => ?_⟩
  match j, hj with
  | 0, _ => cases hs; decide +kernel
  | 1, _ => cases hs; decide +kernel

/-- C61: an instance of C61_placement. -/
theorem C61_placement_concrete (up : Nat → Bytes → Bool) {a a' : List Bytes} {r r' : ReplicaPool Dialled}
    (hm : Main realHashes up true (some someConfig) a (.serving r))
    (hm' : Main realHashes up true (some movedConfig) a' (.serving r')) (k : Bytes) :
    nameOf (r'.primary.pick realHashes k) = nameOf (r.primary.pick realHashes k)
    ∧ nameOf (r'.secondary.pick realHashes k) = nameOf (r.secondary.pick realHashes k) :=
  C61_placement hm hm' (.swap _ _ _) (.refl _) C01_pools_without_clash.1 (one_server_clash _ _ _) k

/-- Empty memcached servers behind all connections. -/
def emptyWorld : World Dialled := fun _ => emptyStore 1000

/-- C61: the hypotheses of C61_no_secondary are met; the Set of `hello` takes the router down. -/
theorem C61_no_secondary_concrete (up : Nat → Bytes → Bool) (hup : ∀ n a, up n a = true) :
    ∃ a r w', Main realHashes up true (some { someConfig with secondary := [] }) a (.serving r)
      ∧ Crashes (router realHashes Dialled.name r) .ascii emptyWorld (Use.metaSet hello).call w'
      ∧ (onPrimaries realHashes r 1000 w').value b!"x" = some b!"he\r\nllo" := by
  obtain ⟨a, r, hm⟩ := (C61_iff (H := realHashes) (dial := up) (listen := true) (c := { someConfig with secondary := [] })).2
    ⟨fun _ _ _ => hup _ _, rfl⟩
  have hg : (Use.metaSet hello).Good := ⟨hello_good, rfl⟩
  have hw : Healthy emptyWorld 0 :=
    ⟨fun s => ⟨⟨emptyStore_good 1000, fun _ _ h => by simp [emptyWorld, emptyStore] at h⟩, by simp only [emptyWorld, emptyStore]; omega⟩, fun _ _ => rfl⟩
  obtain ⟨w', h1, h2⟩ := (C61_no_secondary hm (by decide) rfl hw 1000 (fun _ => rfl) (.metaSet hello) hg).2 rfl
  refine ⟨a, r, w', hm, h1, ?_⟩
  rw [h2]
  rfl

end Props
end Verif
