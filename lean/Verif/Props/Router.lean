import Verif.Proxy.Replica
import Verif.Spec.Router
import Verif.Props.ReplicaWitness
import Verif.Props.ServerAnswers
import Verif.Props.MetaReplies
import Verif.Props.BinaryReplies
/-!
C46-C50: the router (cmd/router/main.go): the server of this module with `ReplicaProxy` as its
handler, in front of a `ReplicaPool` of meta connections to memcached servers.
-/

namespace Verif
namespace Props
open Srv Kv Spec Mc Pool Cluster Proxy

variable {S : Type} [DecidableEq S]

/-- The router's handler over real connections to memcached servers. -/
abbrev router (H : Hashes) (name : S → Bytes) (r : ReplicaPool S) : Handler (World S) :=
  serveRequest (metaEnv H name) r

/-! ### From request and answer to a served call -/

theorem served_of {σ α : Type} {h : Handler σ} {p : Protocol} {s s' : σ} {c : Call α} {req : Request}
    {res : List Response} {x : Res α} (ha : Arrives p c req) (hh : h s req = (.ok res, s'))
    (hr : Answers p req res c x) : Served h p s c x s' := by
  obtain ⟨w, hw, hread⟩ := ha
  obtain ⟨b, hb, hrd⟩ := hr
  refine ⟨w, b, hw, fun q rest hq => ?_, hrd⟩
  rw [serve_eq, hread q hq rest]
  dsimp only
  unfold serveStep
  rw [hh]
  dsimp only
  rw [hb]
  exact ⟨rfl, rfl, rfl⟩

theorem dropped_of {σ α : Type} {h : Handler σ} {p : Protocol} {s s' : σ} {c : Call α} {req : Request}
    {e : Err} (ha : Arrives p c req) (hh : h s req = (.err e, s')) : Dropped h p s c s' := by
  obtain ⟨w, hw, hread⟩ := ha
  refine ⟨w, hw, fun q rest hq => ?_⟩
  rw [serve_eq, hread q hq rest]
  dsimp only
  unfold serveStep
  rw [hh]
  exact ⟨rfl, rfl, rfl⟩

theorem unanswered_of {σ α : Type} {h : Handler σ} {p : Protocol} {s s' : σ} {c : Call α} {req : Request}
    {res : List Response} (ha : Arrives p c req) (hh : h s req = (.ok res, s'))
    (hr : writeResponse p req res = .ok []) : Unanswered h p s c s' := by
  obtain ⟨w, hw, hread⟩ := ha
  refine ⟨w, hw, fun q rest hq => ?_⟩
  rw [serve_eq, hread q hq rest]
  dsimp only
  unfold serveStep
  rw [hh]
  dsimp only
  rw [hr]
  exact ⟨rfl, rfl⟩

theorem served_map {σ α β : Type} {h : Handler σ} {p : Protocol} {s s' : σ} {c : Call α} {x : Res α}
    (hs : Served h p s c x s') (f : α → β) : Served h p s (c.map f) (x.map f) s' := by
  obtain ⟨w, b, hw, h1, h2⟩ := hs
  refine ⟨w, b, hw, h1, fun later => ?_⟩
  show ((c.rd _).1.map f, (c.rd _).2) = _
  rw [h2]

/-! ### Arguments -/

theorem key_plain {k : Bytes} (h : Key k) : Plain k := by
  constructor
  · intro hm; have := (h.1.2 _ hm).1; simp at this
  · intro hm; have := (h.1.2 _ hm).1; simp at this

theorem goodMeta_text {i : Item} (h : GoodMetaItem i) : TextItem i := by
  refine ⟨key_plain h.good.key, ?_, h.good.exp, Nat.lt_of_le_of_lt h.good.value (by decide)⟩
  unfold flagBytes
  cases hf : i.flags with
  | none => decide
  | some f =>
    have := h.flags f hf
    simp [this.1, this.2]

theorem goodMeta_bin {i : Item} (h : GoodMetaItem i) : BinItem i := by
  have h1 := h.good.key.2
  have h2 := h.good.value
  unfold maxValue at h2
  exact ⟨by omega, fun f hf => by have := (h.flags f hf).1; omega, by omega⟩

theorem goodMeta_meta {i : Item} (h : GoodMetaItem i) : MetaItem i := by
  have h2 := h.good.value
  unfold maxValue at h2
  refine ⟨key_plain h.good.key, fun f hf => ?_, h.good.exp, h.good.cas, by omega⟩
  have := h.flags f hf
  refine ⟨by omega, ?_⟩
  rw [List.take_of_length_le (by omega)]
  exact this.2

/-! ### C46 -/

/-- C46: for every request other than Get and Set, the handler fails without using any server,
whatever the servers are. -/
theorem C46_handler {S W : Type} (E : Env S W) (r : ReplicaPool S) (w : W) (req : Request)
    (h1 : req.opcode ≠ opGet) (h2 : req.opcode ≠ opSet) :
    serveRequest E r w req = (.err (.msg b!"proxy: unknown opcode"), w) := by
  unfold serveRequest
  rw [if_neg h1, if_neg h2]
  rfl

/-- C46: such a request, wherever in the stream, makes the router close the connection without
sending anything more and without another backend call; later requests are not read. -/
theorem C46_closes {S W : Type} (E : Env S W) (r : ReplicaPool S) (w : W) (q : Option Protocol) (i rest : Bytes)
    (p : Protocol) (req : Request) (hi : readRequest q i = (.ok (p, req), rest))
    (h1 : req.opcode ≠ opGet) (h2 : req.opcode ≠ opSet) :
    serve (serveRequest E r) q w i = ⟨[req], [], w, .closed⟩ := by
  rw [serve_eq, hi]
  dsimp only
  unfold serveStep
  rw [C46_handler E r w req h1 h2]

/-- C46: so every other operation of a client fails with a closed connection. -/
theorem C46_client {S W α : Type} (E : Env S W) (r : ReplicaPool S) (w : W) (p : Protocol) (c : Call α) (req : Request)
    (ha : Arrives p c req) (h1 : req.opcode ≠ opGet) (h2 : req.opcode ≠ opSet) :
    Dropped (serveRequest E r) p w c w :=
  dropped_of ha (C46_handler E r w req h1 h2)

/-- C46: in particular the following calls of the three clients: nothing is sent back, the connection
is closed, the backends are not asked. -/
theorem C46_operations {S W : Type} (E : Env S W) (r : ReplicaPool S) (w : W) (h : Bin.ReqHdr) (k : Bytes) (i : Item)
    (d e : Int) (hk : Key k) (hi : GoodMetaItem i) (hd : InRange 32 d) (he : InRange 32 e) :
    Dropped (serveRequest E r) .ascii w (Text.delete k) w
    ∧ Dropped (serveRequest E r) .ascii w (Text.add i) w
    ∧ Dropped (serveRequest E r) .ascii w (Text.replace i) w
    ∧ Dropped (serveRequest E r) .ascii w (Text.increment k d e) w
    ∧ Dropped (serveRequest E r) .ascii w (Text.decrement k d e) w
    ∧ Dropped (serveRequest E r) .ascii w (Text.touch k e) w
    ∧ Dropped (serveRequest E r) .ascii w Text.flush w
    ∧ Dropped (serveRequest E r) .ascii w Text.version w
    ∧ Dropped (serveRequest E r) .ascii w (Meta.delete k) w
    ∧ Dropped (serveRequest E r) .ascii w (Meta.add i) w
    ∧ Dropped (serveRequest E r) .ascii w (Meta.replace i) w
    ∧ Dropped (serveRequest E r) .ascii w (Meta.increment k d e) w
    ∧ Dropped (serveRequest E r) .ascii w (Meta.decrement k d e) w
    ∧ Dropped (serveRequest E r) .ascii w Meta.flush w
    ∧ Dropped (serveRequest E r) .ascii w Meta.version w
    ∧ Dropped (serveRequest E r) .binary w (Bin.delete h k) w
    ∧ Dropped (serveRequest E r) .binary w (Bin.add h i) w
    ∧ Dropped (serveRequest E r) .binary w (Bin.replace h i) w
    ∧ Dropped (serveRequest E r) .binary w (Bin.increment h k d e) w
    ∧ Dropped (serveRequest E r) .binary w (Bin.decrement h k d e) w
    ∧ Dropped (serveRequest E r) .binary w (Bin.touch h k e) w
    ∧ Dropped (serveRequest E r) .binary w (Bin.flush h) w
    ∧ Dropped (serveRequest E r) .binary w (Bin.version h) w := by
  have hp := key_plain hk
  have hl : k.length ≤ 65535 := by have := hk.2; omega
  have ht := goodMeta_text hi
  have hb := goodMeta_bin hi
  have hd' : InRange 64 d := by unfold InRange at *; omega
  refine ⟨?_, ?_, ?_, ?_, ?_, ?_, ?_, ?_, ?_, ?_, ?_, ?_, ?_, ?_, ?_, ?_, ?_, ?_, ?_, ?_, ?_, ?_, ?_⟩
  · exact C46_client _ _ _ _ _ _ (C11_delete k hp) (of_decide_eq_true rfl) (of_decide_eq_true rfl)
  · exact C46_client _ _ _ _ _ _ (C11_add i ht) (of_decide_eq_true rfl) (of_decide_eq_true rfl)
  · exact C46_client _ _ _ _ _ _ (C11_replace i ht) (of_decide_eq_true rfl) (of_decide_eq_true rfl)
  · exact C46_client _ _ _ _ _ _ (C11_increment k d e hp hd) (of_decide_eq_true rfl) (of_decide_eq_true rfl)
  · exact C46_client _ _ _ _ _ _ (C11_decrement k d e hp hd) (of_decide_eq_true rfl) (of_decide_eq_true rfl)
  · exact C46_client _ _ _ _ _ _ (C11_touch k e hp he) (of_decide_eq_true rfl) (of_decide_eq_true rfl)
  · exact C46_client _ _ _ _ _ _ C11_flush (of_decide_eq_true rfl) (of_decide_eq_true rfl)
  · exact C46_client _ _ _ _ _ _ C11_version (of_decide_eq_true rfl) (of_decide_eq_true rfl)
  · exact C46_client _ _ _ _ _ _ (C12_delete k hp) (of_decide_eq_true rfl) (of_decide_eq_true rfl)
  · exact C46_client _ _ _ _ _ _ (C12_add i ht) (of_decide_eq_true rfl) (of_decide_eq_true rfl)
  · exact C46_client _ _ _ _ _ _ (C12_replace i ht) (of_decide_eq_true rfl) (of_decide_eq_true rfl)
  · exact C46_client _ _ _ _ _ _ (C12_increment k d e hp hd) (of_decide_eq_true rfl) (of_decide_eq_true rfl)
  · exact C46_client _ _ _ _ _ _ (C12_decrement k d e hp hd) (of_decide_eq_true rfl) (of_decide_eq_true rfl)
  · exact C46_client _ _ _ _ _ _ C12_flush (of_decide_eq_true rfl) (of_decide_eq_true rfl)
  · exact C46_client _ _ _ _ _ _ C12_version (of_decide_eq_true rfl) (of_decide_eq_true rfl)
  · exact C46_client _ _ _ _ _ _ (C10_delete h k hl) (of_decide_eq_true rfl) (of_decide_eq_true rfl)
  · exact C46_client _ _ _ _ _ _ (C10_add h i hb) (of_decide_eq_true rfl) (of_decide_eq_true rfl)
  · exact C46_client _ _ _ _ _ _ (C10_replace h i hb) (of_decide_eq_true rfl) (of_decide_eq_true rfl)
  · exact C46_client _ _ _ _ _ _ (C10_increment h k d e hl hd') (of_decide_eq_true rfl) (of_decide_eq_true rfl)
  · exact C46_client _ _ _ _ _ _ (C10_decrement h k d e hl hd') (of_decide_eq_true rfl) (of_decide_eq_true rfl)
  · exact C46_client _ _ _ _ _ _ (C10_touch h k e hl) (of_decide_eq_true rfl) (of_decide_eq_true rfl)
  · exact C46_client _ _ _ _ _ _ (C10_flush h) (of_decide_eq_true rfl) (of_decide_eq_true rfl)
  · exact C46_client _ _ _ _ _ _ (C10_version h) (of_decide_eq_true rfl) (of_decide_eq_true rfl)

/-! ### The handler over a healthy pool -/

theorem actOut_item {m : Act (World S) Item} {w w' : World S} {i : Item}
    (h : actOut .item m w = (.ok (.item i), w')) : m w = (.ok i, w') := by
  unfold actOut at h
  simp only [Prod.mk.injEq] at h
  obtain ⟨h1, h2⟩ := h
  refine Prod.ext ?_ h2
  cases hm : (m w).1 with
  | ok a => rw [hm] at h1; simp only [Res.map, Res.ok.injEq, Out.item.injEq] at h1; rw [h1]
  | err e => rw [hm] at h1; simp [Res.map] at h1
  | panic => rw [hm] at h1; simp [Res.map] at h1

theorem actOut_err {α : Type} {f : α → Out} {m : Act (World S) α} {w w' : World S} {e : Err}
    (h : actOut f m w = (.err e, w')) : m w = (.err e, w') := by
  unfold actOut at h
  simp only [Prod.mk.injEq] at h
  obtain ⟨h1, h2⟩ := h
  refine Prod.ext ?_ h2
  cases hm : (m w).1 with
  | ok a => rw [hm] at h1; simp [Res.map] at h1
  | err e => rw [hm] at h1; simp only [Res.map, Res.err.injEq] at h1; rw [h1]
  | panic => rw [hm] at h1; simp [Res.map] at h1

theorem actOut_unit {f : Unit → Out} {m : Act (World S) Unit} {w w' : World S} {x : Out}
    (h : actOut f m w = (.ok x, w')) : m w = (.ok (), w') := by
  unfold actOut at h
  simp only [Prod.mk.injEq] at h
  obtain ⟨h1, h2⟩ := h
  refine Prod.ext ?_ h2
  cases hm : (m w).1 with
  | ok a => rfl
  | err e => rw [hm] at h1; simp [Res.map] at h1
  | panic => rw [hm] at h1; simp [Res.map] at h1

/-- A Get whose key is on its primary. -/
theorem router_hit {H : Hashes} {name : S → Bytes} {ps qs : List S} {r : ReplicaPool S} (hr : TwoRings H name ps qs r)
    {w : World S} {n : Nat} (hw : Healthy w (n + 1)) (req : Request) (ho : req.opcode = opGet) (hk : Key req.key)
    {p : S} (hp : r.primary.pick H req.key = .ok p) {e : Entry} (he : (w p).find req.key = some e) :
    router H name r w req = (.ok [{ key := req.key, value := e.value }], w) := by
  obtain ⟨_, q, _, hq⟩ := hr.picks req.key
  have hc := C42_call hr id hw (.get req.key) hk rfl hp hq
  simp only [replicaApi, secondOp, metaApi, he] at hc
  rw [update_id] at hc
  have := actOut_item hc
  show serveRequest (metaEnv H name) r w req = _
  unfold serveRequest
  rw [if_pos ho, this]
  rfl

/-- A Get whose key is not. -/
theorem router_miss {H : Hashes} {name : S → Bytes} {ps qs : List S} {r : ReplicaPool S} (hr : TwoRings H name ps qs r)
    {w : World S} {n : Nat} (hw : Healthy w (n + 1)) (req : Request) (ho : req.opcode = opGet) (hk : Key req.key)
    {p : S} (hp : r.primary.pick H req.key = .ok p) (he : (w p).find req.key = none) :
    router H name r w req = (.ok [{ error := some .itemNotFound }], w) := by
  obtain ⟨_, q, _, hq⟩ := hr.picks req.key
  have hc := C42_call hr id hw (.get req.key) hk rfl hp hq
  simp only [replicaApi, secondOp, metaApi, he] at hc
  rw [update_id] at hc
  have := actOut_err hc
  show serveRequest (metaEnv H name) r w req = _
  unfold serveRequest
  rw [if_pos ho, this]
  rfl

/-- The world after an item has been stored on both servers. -/
def bothHold (w : World S) (p q : S) (i : Item) : World S :=
  World.update (World.update w p ((w p).put i.key i.value (metaFlagsOf i) (expiryOf (w p).now i.expiration))) q
    ((w q).put i.key i.value (metaFlagsOf i) (expiryOf (w q).now i.expiration))

/-- A Set. -/
theorem router_set {H : Hashes} {name : S → Bytes} {ps qs : List S} {r : ReplicaPool S} (hr : TwoRings H name ps qs r)
    {w : World S} {n : Nat} (hw : Healthy w (n + 1)) (req : Request) (ho : req.opcode = opSet) {o : SetOpt}
    (hso : req.setOpt = some o) (hi : GoodMetaItem (itemOf req o)) (hc0 : o.casValue = 0)
    {p q : S} (hp : r.primary.pick H req.key = .ok p) (hq : r.secondary.pick H req.key = .ok q) :
    router H name r w req = (.ok [{}], bothHold w p q (itemOf req o)) := by
  have hc := C42_call hr id hw (.set (itemOf req o)) hi rfl hp hq
  simp only [replicaApi, secondOp, bothApi] at hc
  rw [set_plain _ _ hc0, set_plain _ _ hc0] at hc
  have := actOut_unit hc
  show serveRequest (metaEnv H name) r w req = _
  unfold serveRequest
  rw [if_neg (by rw [ho]; decide), if_pos ho, hso]
  dsimp only
  rw [this]
  rfl

/-! ### C47, C48, C50: what users see -/

/-- The item the pool is asked to store for a Set: a meta client's flags are lost on the way, the
others arrive. -/
def sentItem : Use → Item
  | .textSet i => { key := i.key, value := i.value, flags := some (flagBytes i.flags), expiration := i.expiration }
  | .metaSet i => { key := i.key, value := i.value, expiration := i.expiration }
  | .binSet _ i => { key := i.key, value := i.value, flags := some (binFlags i), expiration := i.expiration }
  | _ => {}

theorem good_plain {i : Item} (h : GoodMetaItem i) (fl : Option Bytes) (hf : ∀ f, fl = some f → f.length = 4 ∧ Flags31 f) :
    GoodMetaItem { key := i.key, value := i.value, flags := fl, expiration := i.expiration } :=
  ⟨⟨h.good.key, h.good.value, h.good.exp, Nat.two_pow_pos 64⟩, hf⟩

theorem good_flagBytes {i : Item} (h : GoodMetaItem i) : (flagBytes i.flags).length = 4 ∧ Flags31 (flagBytes i.flags) := by
  unfold flagBytes
  cases hf : i.flags with
  | none => decide
  | some f => have := h.flags f hf; simp [this.1, this.2]

theorem good_binFlags {i : Item} (h : GoodMetaItem i) : (binFlags i).length = 4 ∧ Flags31 (binFlags i) := by
  unfold binFlags
  cases hf : i.flags with
  | none => decide
  | some f =>
    have := h.flags f hf
    show (f.take 4).length = 4 ∧ Flags31 (f.take 4)
    rw [List.take_of_length_le (by omega)]
    exact this

/-- A binary Set with an expiration that is not negative, as it arrives. -/
def binReq (i : Item) : Request where
  opcode := opSet
  key := i.key
  value := i.value
  flags := some (binFlags i)
  setOpt := some { expiration := i.expiration }

/-- The key a call is about. -/
def useKey : Use → Bytes
  | .textSet i => i.key
  | .metaGet k => k
  | .metaSet i => i.key
  | .binGet _ k => k
  | .binSet _ i => i.key

def isSet : Use → Bool
  | .metaGet _ => false
  | .binGet _ _ => false
  | _ => true

/-- C47: every Set, over any of the three protocols, is acknowledged, and then the primary and the
secondary of its key both hold the value with the same flags and expiry; nothing else has changed. -/
theorem C47_set {H : Hashes} {name : S → Bytes} {ps qs : List S} {r : ReplicaPool S} (hr : TwoRings H name ps qs r)
    {w : World S} {n : Nat} (hw : Healthy w (n + 1)) (u : Use) (hu : u.Good) (hs : isSet u = true)
    {p q : S} (hp : r.primary.pick H (useKey u) = .ok p) (hq : r.secondary.pick H (useKey u) = .ok q) :
    Served (router H name r) u.protocol w u.call (.ok .done) (bothHold w p q (sentItem u)) ∧ GoodMetaItem (sentItem u) := by
  cases u with
  | metaGet k => cases hs
  | binGet h k => cases hs
  | textSet i =>
    have hg : GoodMetaItem (sentItem (.textSet i)) :=
      good_plain hu.1 _ (fun f hf => by cases hf; exact good_flagBytes hu.1)
    have e := router_set hr hw (storeReq opSet i) rfl (o := { expiration := i.expiration }) rfl hg rfl hp hq
    exact ⟨served_map (served_of (C11_set i (goodMeta_text hu.1) hu.2) e (C40_text_set i _ _ rfl)) _, hg⟩
  | metaSet i =>
    have hg : GoodMetaItem (sentItem (.metaSet i)) := good_plain hu.1 _ (fun f hf => by cases hf)
    have ha := C12_set i (goodMeta_meta hu.1)
    have hb := C40_meta_set i {} [] rfl
    generalize hreq : metaSetReq i = req at ha hb
    have e : router H name r w req = (.ok [{}], bothHold w p q (sentItem (.metaSet i))) := by
      have hso : ∃ o, req.setOpt = some o ∧ o.expiration = i.expiration ∧ o.casValue = i.cas := by
        subst hreq; exact ⟨_, rfl, rfl, rfl⟩
      obtain ⟨o, ho, h1, h2⟩ := hso
      have hit : itemOf req o = sentItem (.metaSet i) := by
        unfold itemOf; rw [h1, h2, hu.2]; subst hreq; rfl
      have hk : req.key = i.key := by subst hreq; rfl
      have := router_set hr hw req (by subst hreq; rfl) ho (by rw [hit]; exact hg) (by rw [h2, hu.2])
        (by rw [hk]; exact hp) (by rw [hk]; exact hq)
      rw [hit] at this
      exact this
    exact ⟨served_map (served_of ha e hb) _, hg⟩
  | binSet h i =>
    have hg : GoodMetaItem (sentItem (.binSet h i)) :=
      good_plain hu.1 _ (fun f hf => by cases hf; exact good_binFlags hu.1)
    have ha := C10_set h i (goodMeta_bin hu.1)
    have hb := C40_binary_set h i {} [] ⟨rfl, rfl, rfl, rfl⟩
    have hx : i.expiration % 2 ^ 32 = i.expiration := by
      have := hu.1.good.exp
      have h0 := hu.2
      unfold InRange at this
      exact Int.emod_eq_of_lt h0 (by omega)
    have hreq : binStoreReq opSet i = binReq i := by unfold binStoreReq binReq; rw [hx]
    rw [hreq] at ha hb
    have e := router_set hr hw (binReq i) rfl (o := { expiration := i.expiration }) rfl hg rfl hp hq
    exact ⟨served_map (served_of ha e hb) _, hg⟩

/-- The result of a Get for which the router found the value `v`. -/
def gotten (v : Bytes) : Use → Res Out
  | .metaGet k => .ok (.item { key := k, value := v })
  | .binGet _ k => .ok (.item { key := k, value := v, flags := some [] })
  | _ => .panic

/-- C47: every Get over the meta or binary protocol returns exactly the value the primary holds and
changes nothing. -/
theorem C47_get {H : Hashes} {name : S → Bytes} {ps qs : List S} {r : ReplicaPool S} (hr : TwoRings H name ps qs r)
    {w : World S} {n : Nat} (hw : Healthy w (n + 1)) (u : Use) (hu : u.Good) (hs : isSet u = false)
    {p : S} (hp : r.primary.pick H (useKey u) = .ok p) {e : Entry} (he : (w p).find (useKey u) = some e) :
    Served (router H name r) u.protocol w u.call (gotten e.value u) w := by
  have hv : e.value.length ≤ maxValue := by
    have := (hw.1 p).1.good.entry (useKey u) e
    unfold Store.find at he
    cases hd : (w p).data (useKey u) with
    | none => rw [hd] at he; cases he
    | some e' =>
      rw [hd] at he
      dsimp only at he
      split at he
      · cases he; exact (this hd).2.2.1
      · cases he
  unfold maxValue at hv
  cases u with
  | textSet i => cases hs
  | metaSet i => cases hs
  | binSet h i => cases hs
  | metaGet k =>
    have hk : Key k := hu
    have e1 := router_hit hr hw (metaGetReq k) rfl hk hp he
    exact served_map (served_of (C12_get k (key_plain hk)) e1
      (C14_get k { key := k, value := e.value } (Or.inl rfl) (by show e.value.length < 2 ^ 31; omega))) _
  | binGet h k =>
    have hk : Key k := hu
    have hl := hk.2
    have e1 := router_hit hr hw { opcode := opGet, key := k } rfl hk hp he
    exact served_map (served_of (C10_get h k (by omega)) e1
      (C15_get h k { key := k, value := e.value } ⟨by show 0 < 256; omega,
        by show 0 + k.length < 65536; omega, by show k.length + 0 + e.value.length < 2 ^ 32; omega⟩)) _

/-- C48: a Get of a key that is not there succeeds, over the meta and the binary protocol, and
returns an item with an empty value. -/
theorem C48_miss {H : Hashes} {name : S → Bytes} {ps qs : List S} {r : ReplicaPool S} (hr : TwoRings H name ps qs r)
    {w : World S} {n : Nat} (hw : Healthy w (n + 1)) (u : Use) (hu : u.Good) (hs : isSet u = false)
    {p : S} (hp : r.primary.pick H (useKey u) = .ok p) (he : (w p).find (useKey u) = none) :
    Served (router H name r) u.protocol w u.call (gotten [] u) w := by
  cases u with
  | textSet i => cases hs
  | metaSet i => cases hs
  | binSet h i => cases hs
  | metaGet k =>
    have hk : Key k := hu
    have e1 := router_miss hr hw (metaGetReq k) rfl hk hp he
    exact served_map (served_of (C12_get k (key_plain hk)) e1
      (C14_get k { error := some .itemNotFound } (Or.inl rfl) (by decide))) _
  | binGet h k =>
    have hk : Key k := hu
    have hl := hk.2
    have e1 := router_miss hr hw { opcode := opGet, key := k } rfl hk hp he
    exact served_map (served_of (C10_get h k (by omega)) e1
      (C15_get h k { error := some .itemNotFound } ⟨by decide, by decide, by decide⟩)) _

theorem sentItem_key {u : Use} (hs : isSet u = true) : (sentItem u).key = useKey u := by cases u <;> first | rfl | cases hs

/-- The value and expiration of the item given to a Set. -/
def setArgs : Use → Bytes × Int
  | .textSet i => (i.value, i.expiration)
  | .metaSet i => (i.value, i.expiration)
  | .binSet _ i => (i.value, i.expiration)
  | _ => ([], 0)

theorem sentItem_args (u : Use) : ((sentItem u).value, (sentItem u).expiration) = setArgs u := by cases u <;> rfl

theorem healthy_hold {w : World S} {n : Nat} (hw : Healthy w (n + 2)) {p q : S} (hpq : p ≠ q) {i : Item}
    (hi : GoodMetaItem i) (hc : i.cas = 0) : Healthy (bothHold w p q i) n := by
  have := healthy_both hw hpq (.set i) (.set i) hi hi
  simp only [bothApi] at this
  rw [set_plain _ _ hc, set_plain _ _ hc] at this
  exact this

/-- C47: a value Set through the router, over any protocol, and asked for before it expires, over the
meta or binary protocol, is returned byte for byte; primary and secondary both hold it. -/
theorem C47_round_trip {H : Hashes} {name : S → Bytes} {ps qs : List S} {r : ReplicaPool S} (hr : TwoRings H name ps qs r)
    {w : World S} (hw : Healthy w 3) (u v : Use) (hu : u.Good) (hv : v.Good) (hsu : isSet u = true)
    (hsv : isSet v = false) (hk : useKey v = useKey u)
    {p q : S} (hp : r.primary.pick H (useKey u) = .ok p) (hq : r.secondary.pick H (useKey u) = .ok q)
    (d : Nat) (hd : fresh ((w p).now + d) (expiryOf (w p).now (setArgs u).2) = true) :
    ∃ w', Visits (router H name r) w [(0, u.protocol, u.call), (d, v.protocol, v.call)]
        [.ok .done, gotten (setArgs u).1 v] w'
      ∧ (∃ e, (w' p).data (useKey u) = some e ∧ e.value = (setArgs u).1)
      ∧ ∃ e, (w' q).data (useKey u) = some e ∧ e.value = (setArgs u).1 := by
  have hpq := hr.ne hp hq
  obtain ⟨s1, hg⟩ := C47_set hr (n := 2) hw u hu hsu hp hq
  have hc : (sentItem u).cas = 0 := by cases u <;> rfl
  have hw1 : Healthy (World.tick (bothHold w p q (sentItem u)) d) 1 := healthy_tick (healthy_hold hw hpq hg hc) d
  have a1 : (sentItem u).value = (setArgs u).1 := congrArg Prod.fst (sentItem_args u)
  have a2 : (sentItem u).expiration = (setArgs u).2 := congrArg Prod.snd (sentItem_args u)
  have hkey := sentItem_key hsu
  have dp : (bothHold w p q (sentItem u) p).data (useKey u)
      = some ⟨(setArgs u).1, metaFlagsOf (sentItem u), expiryOf (w p).now (setArgs u).2, (w p).nextCas⟩ := by
    unfold bothHold
    rw [update_other _ _ hpq, update_same, a1, a2, hkey]
    simp [Store.put, Store.write]
  have dq : (bothHold w p q (sentItem u) q).data (useKey u)
      = some ⟨(setArgs u).1, metaFlagsOf (sentItem u), expiryOf (w q).now (setArgs u).2, (w q).nextCas⟩ := by
    unfold bothHold
    rw [update_same, a1, a2, hkey]
    simp [Store.put, Store.write]
  have np : (bothHold w p q (sentItem u) p).now = (w p).now := by
    unfold bothHold
    rw [update_other _ _ hpq, update_same]
    rfl
  have hf : (World.tick (bothHold w p q (sentItem u)) d p).find (useKey v)
      = some ⟨(setArgs u).1, metaFlagsOf (sentItem u), expiryOf (w p).now (setArgs u).2, (w p).nextCas⟩ := by
    rw [hk]
    show Store.find ((bothHold w p q (sentItem u) p).tick d) _ = _
    unfold Store.find
    show (match (bothHold w p q (sentItem u) p).data (useKey u) with
      | some e => if e.live ((bothHold w p q (sentItem u) p).now + d) then some e else none
      | none => none) = _
    rw [dp, np]
    have : Entry.live ⟨(setArgs u).1, metaFlagsOf (sentItem u), expiryOf (w p).now (setArgs u).2, (w p).nextCas⟩ ((w p).now + d)
        = true := by
      unfold Entry.live
      unfold fresh at hd
      dsimp only
      cases hx : expiryOf (w p).now (setArgs u).2 with
      | none => rfl
      | some x => rw [hx] at hd; exact hd
    dsimp only
    rw [if_pos this]
  have s2 := C47_get hr (n := 0) hw1 v hv hsv (by rw [hk]; exact hp) hf
  refine ⟨_, .cons (show Served _ _ (World.tick w 0) _ _ _ from s1) (.cons s2 (.nil _)), ?_, ?_⟩
  · exact ⟨_, dp, rfl⟩
  · exact ⟨_, dq, rfl⟩

/-- The list of calls of a history. -/
def calls (us : List (Nat × Use)) : List (Nat × Protocol × Call Out) :=
  us.map fun du => (du.1, du.2.protocol, du.2.call)

theorem shelf_put {H : Hashes} {r : ReplicaPool S} {w : World S} {p q : S} (hpq : p ≠ q) {i : Item} (t : Nat)
    (ht : (w p).now = t)
    (hsec : ∀ k p', r.primary.pick H k = .ok p' → p' ≠ q) (hp : r.primary.pick H i.key = .ok p) :
    onPrimaries H r t (bothHold w p q i) = (onPrimaries H r t w).put i.key i.value i.expiration := by
  unfold onPrimaries Shelf.put
  simp only [Shelf.mk.injEq, and_true]
  funext k
  by_cases hk : k = i.key
  · subst hk
    rw [if_pos rfl, hp]
    dsimp only
    unfold bothHold
    rw [update_other _ _ hpq, update_same]
    simp [Store.put, Store.write, ht]
  · rw [if_neg hk]
    cases hp' : r.primary.pick H k with
    | err e => rfl
    | panic => rfl
    | ok p' =>
      dsimp only
      have h1 := hsec k p' hp'
      unfold bothHold
      rw [update_other _ _ h1]
      by_cases h2 : p' = p
      · subst h2
        rw [update_same]
        simp [Store.put, Store.write, hk]
      · rw [update_other _ _ h2]

omit [DecidableEq S] in
theorem shelf_value {H : Hashes} {r : ReplicaPool S} {w : World S} {k : Bytes} {p : S} {t : Nat}
    (hp : r.primary.pick H k = .ok p) (ht : (w p).now = t) :
    (onPrimaries H r t w).value k = ((w p).find k).map (·.value) := by
  unfold Shelf.value onPrimaries Store.find
  simp only [hp]
  cases (w p).data k with
  | none => rfl
  | some e =>
    have : fresh t e.expiry = e.live (w p).now := by
      unfold fresh Entry.live
      rw [ht]
      cases e.expiry <;> rfl
    simp only [Option.map_some, this]
    split <;> rfl

/-- C47: any history of Sets and Gets by clients of any protocol, over new or old connections, with any
delays: every call is answered, and every Get returns the value of the last Set of its key if that has
not expired (and was not there before), as on one map; the copies on the secondaries keep agreeing with
the primaries. -/
theorem C47_history {H : Hashes} {name : S → Bytes} {ps qs : List S} {r : ReplicaPool S} (hr : TwoRings H name ps qs r)
    (us : List (Nat × Use)) (hu : ∀ x ∈ us, x.2.Good) (t : Nat) {w : World S} (ht : ∀ s, (w s).now = t)
    (hw : Healthy w (2 * us.length + 1)) (ha : Agree H r w) :
    ∃ w', Visits (router H name r) w (calls us) (runUses (onPrimaries H r t w) us).1 w' ∧ Agree H r w' := by
  induction us generalizing w t with
  | nil => exact ⟨w, .nil w, ha⟩
  | cons du us ih =>
    obtain ⟨d, u⟩ := du
    have hg := hu _ (List.mem_cons_self ..)
    have hus : ∀ x ∈ us, x.2.Good := fun x hx => hu x (List.mem_cons_of_mem _ hx)
    have hw1 : Healthy (World.tick w d) (2 * us.length + 1 + 2) := healthy_mono (healthy_tick hw d) (by simp; omega)
    have ha1 : Agree H r (World.tick w d) := agree_tick ha hw d
    have ht1 : ∀ s, (World.tick w d s).now = t + d := fun s => congrArg (· + d) (ht s)
    have hsh : (onPrimaries H r t w).tick d = onPrimaries H r (t + d) (World.tick w d) := rfl
    obtain ⟨p, q, hp, hq⟩ := hr.picks (useKey u)
    have hpq := hr.ne hp hq
    show ∃ w', Visits _ w ((d, u.protocol, u.call) :: calls us)
      ((u.outcome ((onPrimaries H r t w).tick d)).1 :: (runUses (u.outcome ((onPrimaries H r t w).tick d)).2 us).1) w' ∧ _
    rw [hsh]
    clear hsh
    generalize hW : World.tick w d = w1 at hw1 ha1 ht1 ⊢
    cases hs : isSet u with
    | true =>
      obtain ⟨s1, hgi⟩ := C47_set hr (n := 2 * us.length + 2) hw1 u hg hs hp hq
      have hc : (sentItem u).cas = 0 := by cases u <;> rfl
      have hkey := sentItem_key hs
      have hw2 := healthy_hold hw1 hpq hgi hc
      have ha2 : Agree H r (bothHold w1 p q (sentItem u)) := by
        have := (C42_step hr (n := 2 * us.length + 1) hw1 ha1 (.set (sentItem u)) ⟨hgi, hc⟩ rfl
          (by rw [hkey]; exact hp) (by rw [hkey]; exact hq)).1
        simp only [replicaApi, secondOp, bothApi] at this
        rw [set_plain _ _ hc, set_plain _ _ hc] at this
        exact this
      have ht2 : ∀ s, (bothHold w1 p q (sentItem u) s).now = t + d := by
        intro s
        unfold bothHold
        by_cases h1 : s = q
        · subst h1; rw [update_same]; exact ht1 s
        · rw [update_other _ _ h1]
          by_cases h2 : s = p
          · subst h2; rw [update_same]; exact ht1 s
          · rw [update_other _ _ h2]; exact ht1 s
      obtain ⟨w', hT, hA⟩ := ih hus (t + d) ht2 hw2 ha2
      have hsec : ∀ k p', r.primary.pick H k = .ok p' → p' ≠ q := by
        intro k p' h
        exact hr.ne h hq
      have hput := shelf_put (i := sentItem u) hpq (t + d) (ht1 p) hsec (by rw [hkey]; exact hp)
      have a1 : (sentItem u).value = (setArgs u).1 := congrArg Prod.fst (sentItem_args u)
      have a2 : (sentItem u).expiration = (setArgs u).2 := congrArg Prod.snd (sentItem_args u)
      rw [hput, a1, a2, hkey] at hT
      have ho : u.outcome (onPrimaries H r (t + d) w1)
          = (.ok .done, (onPrimaries H r (t + d) w1).put (useKey u) (setArgs u).1 (setArgs u).2) := by
        cases u <;> first | rfl | cases hs
      rw [ho]
      exact ⟨w', .cons (hW ▸ s1) hT, hA⟩
    | false =>
      obtain ⟨w', hT, hA⟩ := ih hus (t + d) ht1 (healthy_mono hw1 (by omega)) ha1
      have hv := shelf_value (w := w1) (t := t + d) hp (ht1 p)
      have hsv : Served (router H name r) u.protocol w1 u.call
          (gotten (((onPrimaries H r (t + d) w1).value (useKey u)).getD []) u) w1 := by
        rw [hv]
        cases he : (w1 p).find (useKey u) with
        | none => exact C48_miss hr (n := 0) (healthy_mono hw1 (by omega)) u hg hs hp he
        | some e => exact C47_get hr (n := 0) (healthy_mono hw1 (by omega)) u hg hs hp he
      have ho : u.outcome (onPrimaries H r (t + d) w1)
          = (gotten (((onPrimaries H r (t + d) w1).value (useKey u)).getD []) u, onPrimaries H r (t + d) w1) := by
        cases u <;> first | rfl | cases hs
      rw [ho]
      exact ⟨w', .cons (hW ▸ hsv) hT, hA⟩

/-- The handler's result for the result of the pool's Get. -/
def getAnswer {W : Type} : Res Item × W → Res (List Response) × W
  | (.ok i, w') => (.ok [{ key := i.key, value := i.value }], w')
  | (.err e, w') => (failed e, w')
  | (.panic, w') => (.panic, w')

theorem serveRequest_get {S W : Type} (E : Env S W) (r : ReplicaPool S) (w : W) (req : Request) (h : req.opcode = opGet) :
    serveRequest E r w req = getAnswer (Cluster.get E r req.key w) := by
  unfold serveRequest getAnswer
  rw [if_pos h]
  rfl

/-- C48: a text client's Get, when the router's own lookup is a miss (of the empty key, C49), does not
get ItemNotFound either: it fails with a parse error and leaves the end of the reply unread, so that the
next call on the connection reads it. -/
theorem C48_text {S W : Type} (E : Env S W) (r : ReplicaPool S) (w w' : W) (name k : Bytes) (hk : Plain k)
    (hm : Cluster.get E r [] w = (.err .itemNotFound, w')) :
    ∃ wire reply, (Text.get name k).wire = .ok wire
      ∧ (∀ q rest, q = none ∨ q = some .ascii →
          (serve (serveRequest E r) q w (wire ++ rest)).out
            = reply ++ (serve (serveRequest E r) (some .ascii) w' rest).out)
      ∧ ∀ later, (Text.get name k).rd (reply ++ later) = (.err .scan, b!"\r\nEND\r\n" ++ later) := by
  obtain ⟨wire, hw, hread⟩ := C11_get name k hk
  refine ⟨wire, b!"VALUE  0 0\r\n\r\nEND\r\n", hw, fun q rest hq => ?_, fun later => ?_⟩
  · rw [serve_eq, hread q hq rest]
    dsimp only
    unfold serveStep
    have e : serveRequest E r w { opcode := opGet, keys := some [k] } = (.ok [{ error := some .itemNotFound }], w') := by
      rw [serveRequest_get _ _ _ _ rfl]
      show getAnswer (Cluster.get E r [] w) = _
      rw [hm]
      rfl
    rw [e]
    dsimp only
    have hb := (C39_get_bytes .itemNotFound [] none).1
    have hb' : writeResponse .ascii { opcode := opGet, keys := some [k] } [{ error := some .itemNotFound }]
        = writeResponse .ascii { opcode := opGet, key := [] } [{ error := some .itemNotFound }] := rfl
    rw [hb', hb]
  · show (readSlice >>= _) _ = _
    rw [Rd.bind_of_ok (show readSlice (b!"VALUE  0 0\r\n\r\nEND\r\n" ++ later)
      = (.ok b!"VALUE  0 0\r\n", b!"\r\nEND\r\n" ++ later) from rfl)]
    rw [if_neg (by decide), if_neg (by decide)]
    have : Scan.scanValue ((b!"VALUE  0 0\r\n").count 32 != 3) b!"VALUE  0 0\r\n" = none := by decide +kernel
    rw [this]
    rfl

/-! ### C49 -/

/-- C49: whatever key a text client asks for, the router asks the pool for the empty key. -/
theorem C49_lookup {S W : Type} (E : Env S W) (r : ReplicaPool S) (w : W) (name k : Bytes) (hk : Plain k) :
    ∃ req, Arrives .ascii (Text.get name k) req ∧ req.opcode = opGet ∧ req.key = []
      ∧ (serveRequest E r w req).2 = (Cluster.get E r [] w).2 := by
  refine ⟨_, C11_get name k hk, rfl, rfl, ?_⟩
  rw [serveRequest_get _ _ _ _ rfl]
  show (getAnswer (Cluster.get E r [] w)).2 = _
  cases Cluster.get E r [] w with
  | mk x w' => cases x <;> rfl

theorem serveRequest_keys {S W : Type} (E : Env S W) (r : ReplicaPool S) (w : W) (ks ks' : List Bytes) :
    serveRequest E r w { opcode := opGet, keys := some ks } = serveRequest E r w { opcode := opGet, keys := some ks' } := rfl

/-- C49: so the bytes the router sends back to a text client, and the effect on the backends, do not
depend on the key asked for, whatever the backends hold. -/
theorem C49_key_ignored {S W : Type} (E : Env S W) (r : ReplicaPool S) (w : W) (name k1 k2 : Bytes)
    (h1 : Plain k1) (h2 : Plain k2) :
    ∃ w1 w2, (Text.get name k1).wire = .ok w1 ∧ (Text.get name k2).wire = .ok w2
      ∧ ∀ q rest, q = none ∨ q = some .ascii →
        (serve (serveRequest E r) q w (w1 ++ rest)).out = (serve (serveRequest E r) q w (w2 ++ rest)).out
        ∧ (serve (serveRequest E r) q w (w1 ++ rest)).state = (serve (serveRequest E r) q w (w2 ++ rest)).state
        ∧ (serve (serveRequest E r) q w (w1 ++ rest)).fin = (serve (serveRequest E r) q w (w2 ++ rest)).fin := by
  obtain ⟨w1, e1, hr1⟩ := C11_get name k1 h1
  obtain ⟨w2, e2, hr2⟩ := C11_get name k2 h2
  refine ⟨w1, w2, e1, e2, fun q rest hq => ?_⟩
  rw [serve_eq, serve_eq _ q w (w2 ++ rest), hr1 q hq rest, hr2 q hq rest]
  dsimp only
  unfold serveStep
  rw [serveRequest_keys E r w [k1] [k2]]
  have hwr : ∀ res, writeResponse .ascii { opcode := opGet, keys := some [k1] } res
      = writeResponse .ascii { opcode := opGet, keys := some [k2] } res := fun _ => rfl
  cases serveRequest E r w { opcode := opGet, keys := some [k2] } with
  | mk x w' =>
    cases x with
    | err e => exact ⟨rfl, rfl, rfl⟩
    | panic => exact ⟨rfl, rfl, rfl⟩
    | ok res =>
      dsimp only
      rw [hwr]
      cases writeResponse .ascii { opcode := opGet, keys := some [k2] } res with
      | err e => exact ⟨rfl, rfl, rfl⟩
      | panic => exact ⟨rfl, rfl, rfl⟩
      | ok b => exact ⟨rfl, rfl, rfl⟩

/-- C49: no text client can read back two different values: a Get of one key and a Get of another, made
in the same state, have the same result. -/
theorem C49_same_result {S W : Type} (E : Env S W) (r : ReplicaPool S) (w w1 w2 : W) (name k1 k2 : Bytes)
    (h1 : Plain k1) (h2 : Plain k2) (x1 x2 : Res Item)
    (s1 : Served (serveRequest E r) .ascii w (Text.get name k1) x1 w1)
    (s2 : Served (serveRequest E r) .ascii w (Text.get name k2) x2 w2) : x1 = x2 := by
  obtain ⟨a1, b1, ha1, ho1, hx1⟩ := s1
  obtain ⟨a2, b2, ha2, ho2, hx2⟩ := s2
  obtain ⟨c1, c2, hc1, hc2, h⟩ := C49_key_ignored E r w name k1 k2 h1 h2
  rw [ha1] at hc1; cases hc1
  rw [ha2] at hc2; cases hc2
  have o1 := (ho1 none [] (Or.inl rfl)).1
  have o2 := (ho2 none [] (Or.inl rfl)).1
  rw [(h none [] (Or.inl rfl)).1, o2] at o1
  have hn : ∀ v, (serve (serveRequest E r) (some .ascii) v []).out = [] := by
    intro v; rw [serve_eq]; rfl
  rw [hn, hn, List.append_nil, List.append_nil] at o1
  have e1 := hx1 []
  have e2 := hx2 []
  rw [List.append_nil] at e1 e2
  rw [o1] at e2
  have : (Text.get name k1).rd = (Text.get name k2).rd := rfl
  rw [this, e2] at e1
  cases e1
  rfl

/-! ### C50 -/

/-- The flags of the item a Set is given. -/
def givenFlags : Use → Option Bytes
  | .textSet i => i.flags
  | .metaSet i => i.flags
  | .binSet _ i => i.flags
  | _ => none

/-- C50: no Get returns flags, whatever flags the backend holds. -/
theorem C50_get {H : Hashes} {name : S → Bytes} {ps qs : List S} {r : ReplicaPool S} (hr : TwoRings H name ps qs r)
    {w : World S} {n : Nat} (hw : Healthy w (n + 1)) (u : Use) (hu : u.Good) (hs : isSet u = false)
    {p : S} (hp : r.primary.pick H (useKey u) = .ok p) {e : Entry} (he : (w p).find (useKey u) = some e) :
    ∃ i, Served (router H name r) u.protocol w u.call (.ok (.item i)) w ∧ i.value = e.value
      ∧ (i.flags = none ∨ i.flags = some []) := by
  have := C47_get hr hw u hu hs hp he
  cases u with
  | metaGet k => exact ⟨_, this, rfl, Or.inl rfl⟩
  | binGet h k => exact ⟨_, this, rfl, Or.inr rfl⟩
  | _ => cases hs

/-- C50: a Set by a meta client stores flags 0 on both servers, whatever flags were given. -/
theorem C50_meta_set {H : Hashes} {name : S → Bytes} {ps qs : List S} {r : ReplicaPool S} (hr : TwoRings H name ps qs r)
    {w : World S} {n : Nat} (hw : Healthy w (n + 1)) (i : Item) (hi : GoodMetaItem i) (h0 : i.cas = 0)
    {p q : S} (hp : r.primary.pick H i.key = .ok p) (hq : r.secondary.pick H i.key = .ok q) :
    ∃ w', Served (router H name r) .ascii w (Use.metaSet i).call (.ok .done) w'
      ∧ (∃ e, (w' p).data i.key = some e ∧ e.value = i.value ∧ e.flags = 0)
      ∧ ∃ e, (w' q).data i.key = some e ∧ e.value = i.value ∧ e.flags = 0 := by
  have hpq := hr.ne hp hq
  refine ⟨_, (C47_set hr hw (.metaSet i) ⟨hi, h0⟩ rfl hp hq).1, ?_, ?_⟩
  · unfold bothHold
    rw [update_other _ _ hpq, update_same]
    exact ⟨_, by simp [Store.put, Store.write, sentItem]; rfl, rfl, rfl⟩
  · unfold bothHold
    rw [update_same]
    exact ⟨_, by simp [Store.put, Store.write, sentItem]; rfl, rfl, rfl⟩

/-- C50: a Set by a text or binary client does store its flags. -/
theorem C50_other_set {H : Hashes} {name : S → Bytes} {ps qs : List S} {r : ReplicaPool S} (hr : TwoRings H name ps qs r)
    {w : World S} {n : Nat} (hw : Healthy w (n + 1)) (u : Use) (hu : u.Good) (f : Bytes) (hf : givenFlags u = some f)
    (hm : ∀ i, u ≠ .metaSet i)
    {p q : S} (hp : r.primary.pick H (useKey u) = .ok p) (hq : r.secondary.pick H (useKey u) = .ok q) :
    ∃ w', Served (router H name r) u.protocol w u.call (.ok .done) w'
      ∧ (∃ e, (w' p).data (useKey u) = some e ∧ e.flags = getBE f)
      ∧ ∃ e, (w' q).data (useKey u) = some e ∧ e.flags = getBE f := by
  have hpq := hr.ne hp hq
  have hs : isSet u = true := by cases u <;> first | rfl | cases hf
  have hfl : metaFlagsOf (sentItem u) = getBE f := by
    cases u with
    | textSet i =>
      have := (hu.1.flags f hf).1
      have hf' : i.flags = some f := hf
      simp [metaFlagsOf, sentItem, flagBytes, hf', this, List.take_of_length_le]
    | binSet h i =>
      have := (hu.1.flags f hf).1
      have hf' : i.flags = some f := hf
      simp [metaFlagsOf, sentItem, binFlags, hf', this, List.take_of_length_le]
    | metaSet i => exact absurd rfl (hm i)
    | _ => cases hs
  have hkey := sentItem_key hs
  refine ⟨_, (C47_set hr hw u hu hs hp hq).1, ?_, ?_⟩
  · unfold bothHold
    rw [update_other _ _ hpq, update_same, hkey]
    exact ⟨_, by simp [Store.put, Store.write]; rfl, hfl⟩
  · unfold bothHold
    rw [update_same, hkey]
    exact ⟨_, by simp [Store.put, Store.write]; rfl, hfl⟩

/-! ### C53: tokens through the router -/

/-- The item without its flags and server name. -/
def noFlags (i : Item) : Item := { key := i.key, value := i.value, expiration := i.expiration, cas := i.cas }


/-- A Set the pool refuses with ItemNotFound or ItemExists. -/
theorem router_set_refused {H : Hashes} {name : S → Bytes} {r : ReplicaPool S} {w w' : World S} (i : Item)
    (hi : GoodMetaItem i) {e : Err} (he : isMemcachedError e = true)
    (hc : replicaCall H name r id w (.set (noFlags i)) = (.err e, w')) :
    Unanswered (router H name r) .ascii w (Meta.set i) w' := by
  have ha := C12_set i (goodMeta_meta hi)
  have hc' := actOut_err hc
  have hx : ∀ res, writeResponse .ascii (metaSetReq i) ({ error := some e } :: res) = .ok [] := by
    intro res
    simp [writeResponse, writeAscii, metaSetReq, onFirst, opGet, opSet]
  generalize hreq : metaSetReq i = req at ha hx
  have hso : ∃ o, req.setOpt = some o ∧ itemOf req o = noFlags i := by
    subst hreq; exact ⟨_, rfl, rfl⟩
  obtain ⟨o, ho, hit⟩ := hso
  have hop : req.opcode = opSet := by subst hreq; rfl
  have e1 : router H name r w req = (.ok [{ error := some e }], w') := by
    show serveRequest (metaEnv H name) r w req = _
    unfold serveRequest
    rw [if_neg (by rw [hop]; decide), if_pos hop, ho]
    dsimp only
    rw [hit, hc']
    show (failed e, w') = _
    unfold failed
    rw [if_pos he]
  exact unanswered_of ha e1 (hx [])

/-- C53: a Set with a token that is not the primary's current one gets no reply at all: the client waits.
Nothing is stored. -/
theorem C53_stale {H : Hashes} {name : S → Bytes} {ps qs : List S} {r : ReplicaPool S} (hr : TwoRings H name ps qs r)
    {w : World S} {n : Nat} (hw : Healthy w (n + 1)) (i : Item) (hi : GoodMetaItem i) (h0 : 0 < i.cas)
    {p : S} (hp : r.primary.pick H i.key = .ok p)
    (hf : ∀ e, (w p).find i.key = some e → e.cas ≠ i.cas) :
    Unanswered (router H name r) .ascii w (Meta.set i) w := by
  obtain ⟨_, q, _, hq⟩ := hr.picks i.key
  have hg : GoodMetaItem (noFlags i) :=
    ⟨⟨hi.good.key, hi.good.value, hi.good.exp, hi.good.cas⟩, fun f hf => by cases hf⟩
  have hc := C42_call hr id hw (.set (noFlags i)) hg rfl hp hq
  simp only [replicaApi, secondOp, bothApi] at hc
  cases he : (w p).find i.key with
  | none =>
    rw [set_cas_none (noFlags i) (w p) h0 he] at hc
    dsimp only at hc
    rw [update_id] at hc
    exact router_set_refused i hi rfl hc
  | some e =>
    rw [set_cas_other (noFlags i) (w p) h0 he (hf e he)] at hc
    dsimp only at hc
    rw [update_id] at hc
    exact router_set_refused i hi rfl hc

/-- C53: a Set with the primary's current token which is not the secondary's is stored on the primary,
not on the secondary, and gets no reply either. -/
theorem C53_split {H : Hashes} {name : S → Bytes} {ps qs : List S} {r : ReplicaPool S} (hr : TwoRings H name ps qs r)
    {w : World S} {n : Nat} (hw : Healthy w (n + 1)) (i : Item) (hi : GoodMetaItem i) (h0 : 0 < i.cas)
    {p q : S} (hp : r.primary.pick H i.key = .ok p) (hq : r.secondary.pick H i.key = .ok q)
    {e : Entry} (hf : (w p).find i.key = some e) (hcas : e.cas = i.cas)
    (hfq : ∀ e, (w q).find i.key = some e → e.cas ≠ i.cas) :
    ∃ w', Unanswered (router H name r) .ascii w (Meta.set i) w'
      ∧ (∃ e, (w' p).data i.key = some e ∧ e.value = i.value) ∧ w' q = w q := by
  have hpq := hr.ne hp hq
  have hg : GoodMetaItem (noFlags i) :=
    ⟨⟨hi.good.key, hi.good.value, hi.good.exp, hi.good.cas⟩, fun f hf => by cases hf⟩
  have hc := C42_call hr id hw (.set (noFlags i)) hg rfl hp hq
  simp only [replicaApi, secondOp, bothApi] at hc
  rw [set_cas_hit (noFlags i) (w p) h0 hf hcas] at hc
  dsimp only at hc
  have hold : ∀ s', ∃ e, (World.update (World.update w p ((w p).put i.key i.value 0 (expiryOf (w p).now i.expiration))) q s' p).data i.key = some e
      ∧ e.value = i.value := by
    intro s'
    rw [update_other _ _ hpq, update_same]
    exact ⟨_, by simp [Store.put, Store.write]; rfl, rfl⟩
  cases he : (w q).find i.key with
  | none =>
    rw [set_cas_none (noFlags i) (w q) h0 he] at hc
    exact ⟨_, router_set_refused i hi rfl hc, hold _, by rw [update_same]⟩
  | some e2 =>
    rw [set_cas_other (noFlags i) (w q) h0 he (hfq e2 he)] at hc
    exact ⟨_, router_set_refused i hi rfl hc, hold _, by rw [update_same]⟩

/-! ### Concrete cases -/

def hello : Item := { key := b!"x", value := b!"he\r\nllo", flags := some [0, 0, 0, 7], expiration := 60 }

theorem hello_good : GoodMetaItem hello :=
  ⟨⟨by decide, by decide, by decide, by decide⟩, fun f hf => by cases hf; decide⟩

/-- A meta client sets "x", a binary client reads it 59 seconds later. -/
theorem C47_concrete : ∃ w', Visits (router realHashes id abc) empties
    [(0, .ascii, (Use.metaSet hello).call), (59, .binary, (Use.binGet {} b!"x").call)]
    [.ok .done, .ok (.item { key := b!"x", value := b!"he\r\nllo", flags := some [] })] w' := by
  obtain ⟨w', h, -⟩ := C47_round_trip abc_rings (empties_healthy 3 (by decide)) (.metaSet hello) (.binGet {} b!"x")
    ⟨hello_good, rfl⟩ (by show Key b!"x"; decide) rfl rfl rfl abc_a (abc_c _) 59 (by decide)
  exact ⟨w', h⟩

/-- The uses of the history below. -/
def someUses : List (Nat × Use) :=
  [(0, .metaGet b!"x"), (1, .binSet {} hello), (2, .textSet { key := b!"y", value := b!"0" }),
    (3, .metaGet b!"x"), (4, .binGet {} b!"y"), (60, .metaGet b!"x")]

theorem someUses_good : ∀ x ∈ someUses, x.2.Good := by
  unfold someUses
  simp only [List.forall_mem_cons]
  refine ⟨?_, ?_, ?_, ?_, ?_, ?_, by simp⟩
  · show Key b!"x"; decide
  · exact ⟨hello_good, by decide⟩
  · exact ⟨⟨⟨by decide, by decide, by decide, by decide⟩, fun f hf => by cases hf⟩, rfl⟩
  · show Key b!"x"; decide
  · show Key b!"y"; decide
  · show Key b!"x"; decide

theorem someUses_results (sh : Shelf) (hx : sh.data b!"x" = none) (hy : sh.data b!"y" = none) (hn : sh.now = 1000) :
    (runUses sh someUses).1 = [.ok (.item { key := b!"x" }), .ok .done, .ok .done,
      .ok (.item { key := b!"x", value := b!"he\r\nllo" }), .ok (.item { key := b!"y", value := b!"0", flags := some [] }),
      .ok (.item { key := b!"x" })] := by
  cases sh with
  | mk data now =>
    dsimp only at hx hy hn
    subst hn
    simp [someUses, runUses, Use.outcome, Shelf.tick, Shelf.value, Shelf.put, hx, hello, expiryOf, fresh, maxDelta]

omit [DecidableEq S] in
theorem onPrimaries_none {H : Hashes} {r : ReplicaPool S} {t : Nat} {w : World S} {k : Bytes} {p : S}
    (hp : r.primary.pick H k = .ok p) (h : (w p).data k = none) : (onPrimaries H r t w).data k = none := by
  simp only [onPrimaries, hp, h, Option.map_none]

theorem empties_x : (onPrimaries realHashes abc 1000 empties).data b!"x" = none := onPrimaries_none abc_a rfl
theorem empties_y : (onPrimaries realHashes abc 1000 empties).data b!"y" = none := onPrimaries_none abc_b rfl

/-- A history: a Get before the first Set, a binary Set, a text Set of another key, Gets of both, and a
Get after the first has expired. -/
theorem C47_history_concrete : ∃ w', Visits (router realHashes id abc) empties
    (calls [(0, .metaGet b!"x"), (1, .binSet {} hello), (2, .textSet { key := b!"y", value := b!"0" }),
      (3, .metaGet b!"x"), (4, .binGet {} b!"y"), (60, .metaGet b!"x")])
    [.ok (.item { key := b!"x" }), .ok .done, .ok .done,
      .ok (.item { key := b!"x", value := b!"he\r\nllo" }), .ok (.item { key := b!"y", value := b!"0", flags := some [] }),
      .ok (.item { key := b!"x" })] w' := by
  obtain ⟨w', h, -⟩ := C47_history abc_rings someUses someUses_good 1000 (w := empties) (fun _ => rfl)
    (empties_healthy _ (by decide)) empties_agree
  rw [someUses_results _ empties_x empties_y rfl] at h
  exact ⟨w', h⟩

/-- C48: the same with no Set before. -/
theorem C48_concrete : Served (router realHashes id abc) .binary empties (Use.binGet {} b!"x").call
    (.ok (.item { key := b!"x", flags := some [] })) empties :=
  C48_miss abc_rings (empties_healthy 1 (by decide)) (.binGet {} b!"x") (by show Key b!"x"; decide) rfl abc_a rfl

/-- Servers that all give the same answer to every Get. -/
def constEnv (x : Res Item) : Env Bytes Unit where
  H := realHashes
  name := id
  ops _ := ⟨fun _ w => (x, w), fun _ w => (.panic, w), fun _ w => (.panic, w), fun _ w => (.panic, w), fun _ w => (.panic, w),
    fun _ w => (.panic, w), fun _ _ _ w => (.panic, w), fun _ _ _ w => (.panic, w), fun _ _ w => (.panic, w),
    fun w => (.panic, w), fun w => (.panic, w), fun w => (.panic, w)⟩

theorem constEnv_get (x : Res Item) : Cluster.get (constEnv x) abc [] () = (x, ()) := by
  unfold Cluster.get onPicked
  obtain ⟨p, q, hp, _⟩ := abc_rings.picks []
  rw [show abc.primary.pick (constEnv x).H [] = .ok p from hp]
  rfl

/-- C48: a miss seen by a text client. -/
theorem C48_text_concrete : ∃ wire reply, (Text.get b!"s" b!"x").wire = .ok wire
    ∧ (serve (serveRequest (constEnv (.err .itemNotFound)) abc) none () wire).out = reply
    ∧ (Text.get b!"s" b!"x").rd reply = (.err .scan, b!"\r\nEND\r\n") := by
  obtain ⟨wire, reply, h1, h2, h3⟩ := C48_text (constEnv (.err .itemNotFound)) abc () () b!"s" b!"x" (by decide)
    (constEnv_get _)
  refine ⟨wire, reply, h1, ?_, ?_⟩
  · have := h2 none [] (Or.inl rfl)
    rw [List.append_nil] at this
    rw [this, serve_eq]
    exact List.append_nil _
  · have := h3 []
    rwa [List.append_nil] at this

/-- C49: a text client that asks for "a" is served, with whatever the router found under the empty key. -/
theorem C49_concrete : Served (serveRequest (constEnv (.ok { key := b!"z", value := b!"1" })) abc) .ascii ()
    (Text.get b!"s" b!"a") (.ok { key := b!"z", value := b!"1", flags := some [0, 0, 0, 0], server := b!"s" }) () := by
  refine served_of (C11_get b!"s" b!"a" (by decide)) ?_ (C13_get b!"s" b!"a" { key := b!"z", value := b!"1" } ?_)
  · rw [serveRequest_get _ _ _ _ rfl]
    show getAnswer (Cluster.get _ abc [] ()) = _
    rw [constEnv_get]
    rfl
  · exact ⟨⟨[122], by decide, by decide, by decide, by decide⟩, by decide, Or.inl rfl, by decide⟩

/-- C50: flags 7 given, none stored. -/
theorem C50_concrete : ∃ w', Served (router realHashes id abc) .ascii empties (Use.metaSet hello).call (.ok .done) w'
    ∧ ∃ e, (w' b!"a").data b!"x" = some e ∧ e.value = b!"he\r\nllo" ∧ e.flags = 0 := by
  obtain ⟨w', h1, h2, -⟩ := C50_meta_set abc_rings (empties_healthy 1 (by decide)) hello hello_good rfl abc_a (abc_c _)
  exact ⟨w', h1, h2⟩

theorem C50_other_concrete : ∃ w', Served (router realHashes id abc) .binary empties (Use.binSet {} hello).call (.ok .done) w'
    ∧ ∃ e, (w' b!"a").data b!"x" = some e ∧ e.flags = 7 := by
  obtain ⟨w', h1, h2, -⟩ := C50_other_set abc_rings (empties_healthy 1 (by decide)) (.binSet {} hello)
    ⟨hello_good, by decide⟩ _ rfl (fun _ h => by cases h) abc_a (abc_c _)
  exact ⟨w', h1, h2⟩

/-- C53: a token for a key that is not there. -/
theorem C53_concrete : Unanswered (router realHashes id abc) .ascii empties (Meta.set { hello with cas := 5 }) empties :=
  C53_stale abc_rings (empties_healthy 1 (by decide)) { hello with cas := 5 }
    ⟨⟨by decide, by decide, by decide, by decide⟩, fun f hf => by cases hf; decide⟩ (by decide) abc_a
    (fun e he => by cases he)

end Props
end Verif
