import Verif.Props.RouterClients
import Verif.Props.Truncation
import Verif.Lemmas.Drained
import Verif.Spec.Outage
/-!
C60: the router when connections to its memcached servers break.
-/

namespace Verif
namespace Props
open Srv Spec Pool Cluster Kv Mc Proxy Life

variable {S : Type} [DecidableEq S]

/-- The handler of the router over connections that can break. -/
abbrev linkRouter (H : Hashes) (name : S → Bytes) (r : ReplicaPool S) : Handler (Sea S) :=
  serveRequest (linkEnv H name) r

/-! ### one connection -/

/-- A connection as it is between two calls. -/
structure Kept (l : Cluster.Link) : Prop where
  raw : l.client.raw = true
  timeout : l.client.timeout = false
  inbox : l.client.net.inbox = []
  live : l.cut = false → l.client.net.isOpen = true ∧ l.client.net.werr = false

/-- The operations of the router. -/
def Routed : Op → Prop
  | .get _ => True
  | .set _ => True
  | _ => False

theorem routed_drained {o : Op} (h : Routed o) : Drained (metaCall o).rd := by
  cases o <;> first | exact drained_get _ | exact drained_set _ | exact h.elim

theorem routed_empty {o : Op} (h : Routed o) : (metaCall o).rd [] = (.err .io, []) := by
  have h1 := (C22_no_reply [] {} {} o).2.1
  exact Prod.ext h1 (routed_drained h [] h1)

theorem kept_op {l : Cluster.Link} (hk : Kept l) {o : Op} {wire : Bytes} (hw : (metaCall o).wire = .ok wire) (f : Fate) :
    op l.client (metaCall o) f = ((talk l.client.net wire (metaCall o).rd f).1,
      { l.client with net := (talk l.client.net wire (metaCall o).rd f).2 }) := by
  unfold Life.op
  rw [if_neg (fun h => by rw [hk.raw] at h; cases h.2), if_neg (fun h => by rw [hk.raw] at h; cases h.2), hw]

theorem talk_live {n : Net} (h1 : n.isOpen = true) (h2 : n.werr = false) (h3 : n.inbox = []) (w : Bytes) (rd : Rd Out) (f : Fate) :
    talk n w rd f = match f with
      | .broken k => (.err .io, { n with sent := n.sent ++ w.take k, werr := true })
      | .answered reply => ((rd reply).1, { n with sent := n.sent ++ w, inbox := (rd reply).2 }) := by
  unfold talk
  rw [if_neg (by rw [h1, h2]; decide), h3]
  rfl

theorem exchange_inv {o : Op} {st st' : Store} {res : Res Out} (h : exchange (metaCall o) st = some (res, st')) :
    ∃ wire, (metaCall o).wire = .ok wire ∧ (serverSide st (metaCall o)).2 = st'
      ∧ (metaCall o).rd (serverSide st (metaCall o)).1 = (res, []) := by
  unfold exchange at h
  cases hw : (metaCall o).wire with
  | err e => rw [hw] at h; cases h
  | panic => rw [hw] at h; cases h
  | ok w =>
    rw [hw] at h
    dsimp only at h
    cases ha : answer st w with
    | none => rw [ha] at h; cases h
    | some x =>
      obtain ⟨reply, s2⟩ := x
      rw [ha] at h
      dsimp only at h
      have hs : serverSide st (metaCall o) = (reply, s2) := by
        unfold serverSide; rw [hw]; dsimp only; rw [ha]
      rw [hs]
      refine ⟨w, rfl, ?_⟩
      cases hr : (metaCall o).rd reply with
      | mk x r =>
        rw [hr] at h
        cases r with
        | cons _ _ => cases h
        | nil =>
          dsimp only at h
          split at h
          · cases h
          · cases h; exact ⟨rfl, rfl⟩

/-- A call on a broken connection fails and does nothing. -/
theorem call_dead {l : Cluster.Link} (hk : Kept l) (hc : l.cut = true) {o : Op} (ho : Routed o) {wire : Bytes}
    (hw : (metaCall o).wire = .ok wire) (x : Weather) :
    (l.call x o).1 = .err .io ∧ Kept (l.call x o).2 ∧ (l.call x o).2.cut = true ∧ (l.call x o).2.store = l.store := by
  unfold Link.call
  rw [if_pos hc]
  dsimp only
  rw [kept_op hk hw]
  dsimp only
  have ht : (talk l.client.net wire (metaCall o).rd (deadFate x)).1 = .err .io
      ∧ (talk l.client.net wire (metaCall o).rd (deadFate x)).2.inbox = [] := by
    unfold talk
    split
    · exact ⟨rfl, hk.inbox⟩
    · cases x with
      | unsent k => exact ⟨rfl, hk.inbox⟩
      | _ =>
        simp only [deadFate]
        rw [hk.inbox, List.nil_append, routed_empty ho]
        exact ⟨rfl, rfl⟩
  exact ⟨ht.1, ⟨hk.raw, hk.timeout, ht.2, fun h => by rw [hc] at h; cases h⟩, hc, rfl⟩

/-- A call on a connection that works. -/
theorem call_live {l : Cluster.Link} (hk : Kept l) (hc : l.cut = false) {o : Op} (ho : Routed o) {st' : Store} {res : Res Out}
    (hx : exchange (metaCall o) l.store = some (res, st')) (x : Weather) :
    Kept (l.call x o).2 ∧
    (x = .fine ∧ (l.call x o).1 = res ∧ (l.call x o).2.cut = false ∧ (l.call x o).2.store = st'
      ∨ x ≠ .fine ∧ (l.call x o).2.cut = true ∧
        ((l.call x o).1 = res ∧ (l.call x o).2.store = st'
          ∨ (l.call x o).1 = .err .io ∧ ((l.call x o).2.store = l.store ∨ (l.call x o).2.store = st'))) := by
  obtain ⟨wire, hw, hs, hr⟩ := exchange_inv hx
  obtain ⟨h1, h2⟩ := hk.live hc
  have h3 := hk.inbox
  unfold Link.call
  rw [if_neg (by rw [hc]; decide)]
  cases x with
  | fine =>
    dsimp only
    rw [kept_op hk hw, talk_live h1 h2 h3]
    dsimp only
    rw [hr, hs]
    exact ⟨⟨hk.raw, hk.timeout, rfl, fun _ => ⟨h1, h2⟩⟩, .inl ⟨rfl, rfl, rfl, rfl⟩⟩
  | unsent k =>
    dsimp only
    rw [kept_op hk hw, talk_live h1 h2 h3]
    exact ⟨⟨hk.raw, hk.timeout, h3, fun h => by cases h⟩, .inr ⟨fun h => (by cases h), rfl, .inr ⟨rfl, .inl rfl⟩⟩⟩
  | lost =>
    dsimp only
    rw [kept_op hk hw, talk_live h1 h2 h3]
    dsimp only
    rw [routed_empty ho]
    exact ⟨⟨hk.raw, hk.timeout, rfl, fun h => by cases h⟩, .inr ⟨by decide, rfl, .inr ⟨rfl, .inl rfl⟩⟩⟩
  | late n =>
    dsimp only
    rw [kept_op hk hw, talk_live h1 h2 h3]
    dsimp only
    rw [hs]
    by_cases hn : (serverSide l.store (metaCall o)).1.length ≤ n
    · rw [List.take_of_length_le hn, hr]
      exact ⟨⟨hk.raw, hk.timeout, rfl, fun h => by cases h⟩, .inr ⟨fun h => (by cases h), rfl, .inl ⟨rfl, rfl⟩⟩⟩
    · have hcut := C22_meta o _ _ _ hr ((serverSide l.store (metaCall o)).1.take n) (List.take_prefix ..)
        (by simp; omega)
      have hd := routed_drained ho _ hcut
      have : (metaCall o).rd ((serverSide l.store (metaCall o)).1.take n) = (.err .io, []) := Prod.ext hcut hd
      rw [this]
      exact ⟨⟨hk.raw, hk.timeout, rfl, fun h => by cases h⟩, .inr ⟨fun h => (by cases h), rfl, .inr ⟨rfl, .inr rfl⟩⟩⟩

/-! ### the handler -/

/-- The site `a` is what the router and its servers `w` amount to; there are tokens left for `n` changes. -/
structure Amounts (home : Bytes → S × S) (n : Nat) (w : Sea S) (a : Site S) : Prop where
  kept : ∀ s, Kept (w.link s)
  down : ∀ s, a.down s = (w.link s).cut
  store : ∀ s, (w.link s).cut = false → GoodMetaStore (w.link s).store ∧ (w.link s).store.nextCas + n < 2 ^ 63
    ∧ (w.link s).store.now = a.shelf.now
  small : Small a.shelf
  data : ∀ k, (w.link (home k).1).cut = false →
    a.shelf.data k = ((w.link (home k).1).store.data k).map fun e => (e.value, e.expiry)

theorem onPicked_link {α : Type} {H : Hashes} {name : S → Bytes} {r : Ring S} {k : Bytes} {s : S} (hp : r.pick H k = .ok s)
    (f : ServerOps (Sea S) → Act (Sea S) α) (w : Sea S) :
    onPicked (linkEnv H name) r k f w = f (linkOps s) w := by
  unfold onPicked
  show (Act.lift (r.pick H k) >>= fun s => f (linkOps s)) w = _
  rw [hp]
  rfl

theorem get_eq {H : Hashes} {name : S → Bytes} {r : ReplicaPool S} {req : Request} (ho : req.opcode = opGet)
    {p : S} (hp : r.primary.pick H req.key = .ok p) (w : Sea S) :
    linkRouter H name r w req = getAnswer (onLink p (.get req.key) outItem w) := by
  rw [linkRouter, serveRequest_get _ _ _ _ ho]
  show getAnswer (onPicked (linkEnv H name) r.primary req.key (·.get req.key) w) = _
  rw [onPicked_link hp]
  rfl

theorem set_eq {H : Hashes} {name : S → Bytes} {r : ReplicaPool S} {req : Request} (ho : req.opcode = opSet) {o : SetOpt}
    (hso : req.setOpt = some o)
    {p q : S} (hp : r.primary.pick H req.key = .ok p) (hq : r.secondary.pick H req.key = .ok q) (w : Sea S) :
    linkRouter H name r w req = match onLink p (.set (itemOf req o)) outDone w with
      | (.ok _, w1) =>
        match onLink q (.set (itemOf req o)) outDone w1 with
        | (.ok _, w2) => (.ok [{}], w2)
        | (.err e, w2) => (failed e, w2)
        | (.panic, w2) => (.panic, w2)
      | (.err e, w1) => (failed e, w1)
      | (.panic, w1) => (.panic, w1) := by
  show serveRequest (linkEnv H name) r w req = _
  unfold serveRequest
  rw [if_neg (by rw [ho]; decide), if_pos ho, hso]
  dsimp only
  unfold Cluster.set
  rw [Act.bind_apply, onPicked_link (show r.primary.pick H (itemOf req o).key = .ok p from hp)]
  have e1 : (linkOps p).set (itemOf req o) w = onLink p (.set (itemOf req o)) outDone w := rfl
  rw [e1]
  cases onLink p (.set (itemOf req o)) outDone w with
  | mk x w1 =>
    cases x with
    | err e => rfl
    | panic => rfl
    | ok _ =>
      dsimp only
      rw [onPicked_link (show r.secondary.pick H (itemOf req o).key = .ok q from hq)]
      have e2 : (linkOps q).set (itemOf req o) w1 = onLink q (.set (itemOf req o)) outDone w1 := rfl
      rw [e2]
      cases onLink q (.set (itemOf req o)) outDone w1 with
      | mk y w2 => cases y <;> rfl

theorem amounts_put {home : Bytes → S × S} {n : Nat} {w : Sea S} {a : Site S} (ha : Amounts home (n + 1) w a) (s : S)
    {l : Cluster.Link} {sh : Shelf} (luck : Nat → Weather) (hk : Kept l)
    (hst : l.cut = false → GoodMetaStore l.store ∧ l.store.nextCas + n < 2 ^ 63 ∧ l.store.now = a.shelf.now)
    (hnow : sh.now = a.shelf.now) (hsm : Small sh)
    (hd : ∀ k, (home k).1 = s → l.cut = false → sh.data k = (l.store.data k).map fun e => (e.value, e.expiry))
    (ho : ∀ k, (home k).1 ≠ s → sh.data k = a.shelf.data k) :
    Amounts home n ⟨fun x => if x = s then l else w.link x, luck⟩ ⟨sh, fun x => if x = s then l.cut else a.down x⟩ := by
  refine ⟨fun x => ?_, fun x => ?_, fun x hx => ?_, hsm, fun k hx => ?_⟩
  · dsimp only; split
    · exact hk
    · exact ha.kept x
  · dsimp only; split
    · rfl
    · exact ha.down x
  · dsimp only at hx ⊢
    split
    · rename_i h; rw [if_pos h] at hx; rw [hnow]; exact hst hx
    · rename_i h; rw [if_neg h] at hx
      have := ha.store x hx
      rw [hnow]
      exact ⟨this.1, by omega, this.2.2⟩
  · dsimp only at hx ⊢
    split
    · rename_i h; rw [if_pos h] at hx; exact hd k h hx
    · rename_i h; rw [if_neg h] at hx
      rw [ho k h]
      exact ha.data k hx

theorem amounts_mono {home : Bytes → S × S} {n : Nat} {w : Sea S} {a : Site S} (h : Amounts home (n + 1) w a) :
    Amounts home n w a :=
  ⟨h.kept, h.down, fun s hs => ⟨(h.store s hs).1, by have := (h.store s hs).2.1; omega, (h.store s hs).2.2⟩, h.small, h.data⟩

/-- The request `req` has been served. -/
structure Took (home : Bytes → S × S) (n : Nat) (w : Sea S) (a : Site S) (req : Request) (writes : Bool)
    (x : Res (List Response)) (w' : Sea S) (b : Site S) : Prop where
  amounts : Amounts home n w' b
  worse : ∀ s, a.down s = true → b.down s = true
  only : ∀ s, s ≠ (home req.key).1 → (writes = false ∨ s ≠ (home req.key).2) → b.down s = a.down s
  result : (x = (shelfAnswer a.shelf req).1 ∧ b.shelf = (shelfAnswer a.shelf req).2
      ∧ a.down (home req.key).1 = false ∧ (writes = true → a.down (home req.key).2 = false))
    ∨ x = .err .io ∧ (b.down (home req.key).1 = true ∨ writes = true ∧ b.down (home req.key).2 = true)
      ∧ (b.shelf = a.shelf ∨ a.down (home req.key).1 = false ∧ b.shelf = (shelfAnswer a.shelf req).2)
  calm : (∀ n, w.luck n = .fine) → (∀ n, w'.luck n = .fine) ∧ b.down = a.down
    ∧ (x, b.shelf) = if a.down (home req.key).1 then (.err .io, a.shelf)
        else if writes ∧ a.down (home req.key).2 then (.err .io, (shelfAnswer a.shelf req).2)
        else shelfAnswer a.shelf req

theorem same_site {a : Site S} {s : S} {c : Bool} (h : a.down s = c) :
    (⟨a.shelf, fun x => if x = s then c else a.down x⟩ : Site S) = a := by
  have : (fun x => if x = s then c else a.down x) = a.down := by
    funext x; split
    · rename_i e; rw [e, h]
    · rfl
  rw [this]

theorem get_wire (k : Bytes) : ∃ wire, (metaCall (.get k)).wire = .ok wire := ⟨_, rfl⟩

theorem get_api (st : Store) (k : Bytes) : (metaApi st (.get k)).2 = st
    ∧ (∃ e i, st.find k = some e ∧ (metaApi st (.get k)).1 = .ok (.item i) ∧ i.key = k ∧ i.value = e.value
      ∨ st.find k = none ∧ (metaApi st (.get k)).1 = .err .itemNotFound) := by
  simp only [metaApi]
  cases st.find k with
  | none => exact ⟨rfl, ⟨[], 0, none, 0⟩, {}, .inr ⟨rfl, rfl⟩⟩
  | some e => exact ⟨rfl, e, _, .inl ⟨rfl, rfl, rfl, rfl⟩⟩

theorem amounts_value {home : Bytes → S × S} {n : Nat} {w : Sea S} {a : Site S} (ha : Amounts home n w a) (k : Bytes)
    (hc : (w.link (home k).1).cut = false) :
    a.shelf.value k = ((w.link (home k).1).store.find k).map (·.value) := by
  unfold Shelf.value Store.find
  rw [ha.data k hc]
  cases (w.link (home k).1).store.data k with
  | none => rfl
  | some e =>
    have : fresh a.shelf.now e.expiry = e.live (w.link (home k).1).store.now := by
      unfold fresh Entry.live
      rw [(ha.store _ hc).2.2]
      cases e.expiry <;> rfl
    simp only [Option.map_some, this]
    split <;> rfl

/-- A Get. -/
theorem took_get {H : Hashes} {name : S → Bytes} {r : ReplicaPool S} {home : Bytes → S × S} (hh : HomeOf H r home)
    {n : Nat} {w : Sea S} {a : Site S} (ha : Amounts home (n + 1) w a) {req : Request} (ho : req.opcode = opGet)
    (hk : Key req.key) :
    ∃ b, Took home n w a req false (linkRouter H name r w req).1 (linkRouter H name r w req).2 b := by
  rw [get_eq ho (hh req.key).1]
  obtain ⟨wire, hwire⟩ := get_wire req.key
  generalize hp : (home req.key).1 = p
  have hdp := ha.down p
  have hon : onLink p (.get req.key) outItem w = (taken outItem (w.call p (.get req.key)).1, (w.call p (.get req.key)).2) := rfl
  cases hc : (w.link p).cut with
  | true =>
    obtain ⟨h1, h2, h3, h4⟩ := call_dead (ha.kept p) hc (o := .get req.key) trivial hwire (w.luck 0)
    have hA := amounts_put ha p (l := ((w.link p).call (w.luck 0) (.get req.key)).2) (sh := a.shelf)
      (fun n => w.luck (n + 1)) h2 (fun h => by rw [h3] at h; cases h) rfl ha.small (fun k _ h => by rw [h3] at h; cases h)
      (fun _ _ => rfl)
    rw [h3, same_site (by rw [hdp, hc])] at hA
    have hcall : w.call p (.get req.key) = (.err .io, ⟨fun x => if x = p then ((w.link p).call (w.luck 0) (.get req.key)).2
        else w.link x, fun n => w.luck (n + 1)⟩) := by unfold Sea.call; rw [h1]
    rw [hon, hcall]
    refine ⟨a, hA, fun _ h => h, fun _ _ _ => rfl, .inr ⟨rfl, .inl ?_, .inl rfl⟩, fun hl => ⟨fun n => hl (n + 1), rfl, ?_⟩⟩
    · rw [hp, hdp, hc]
    · rw [hp, hdp, hc, if_pos rfl]; rfl
  | false =>
    have hx := C52_meta_call (.get req.key) (w.link p).store (ha.store p hc).1 hk
    obtain ⟨hst, e, i, hres⟩ := get_api (w.link p).store req.key
    have hx' : exchange (metaCall (.get req.key)) (w.link p).store
        = some ((metaApi (w.link p).store (.get req.key)).1, (w.link p).store) := by rw [hx]; exact congrArg some (Prod.ext rfl hst)
    obtain ⟨hkp, hcase⟩ := call_live (ha.kept p) hc (o := .get req.key) trivial hx' (w.luck 0)
    generalize hl' : ((w.link p).call (w.luck 0) (.get req.key)).2 = l' at hkp hcase
    have hstore : l'.store = (w.link p).store := by
      rcases hcase with ⟨_, _, _, h⟩ | ⟨_, _, ⟨_, h⟩ | ⟨_, h | h⟩⟩ <;> exact h
    have hA := amounts_put ha p (l := l') (sh := a.shelf) (fun n => w.luck (n + 1)) hkp
      (fun _ => by rw [hstore]; have := ha.store p hc; exact ⟨this.1, by omega, this.2.2⟩) rfl ha.small
      (fun k hk _ => by rw [hstore, ← hk]; exact ha.data k (by rw [hk]; exact hc)) (fun _ _ => rfl)
    have hv := amounts_value ha req.key (by rw [hp]; exact hc)
    rw [hp] at hv
    -- what the shelf says is what the server says
    have hans : ∀ w2 : Sea S, getAnswer (taken outItem (metaApi (w.link p).store (.get req.key)).1, w2)
        = ((shelfAnswer a.shelf req).1, w2) ∧ (shelfAnswer a.shelf req).2 = a.shelf := by
      intro w2
      unfold shelfAnswer
      rw [if_pos ho, hv]
      rcases hres with ⟨h1, h2, h3, h4⟩ | ⟨h1, h2⟩
      · rw [h1, h2]
        simp only [Option.map_some, taken, outItem, getAnswer, h3, h4]
        exact ⟨trivial, trivial⟩
      · rw [h1, h2]
        exact ⟨rfl, rfl⟩
    have hcall : w.call p (.get req.key) = (((w.link p).call (w.luck 0) (.get req.key)).1,
        ⟨fun x => if x = p then l' else w.link x, fun n => w.luck (n + 1)⟩) := by unfold Sea.call; rw [hl']
    rw [hon, hcall]
    dsimp only
    have hsh := (hans ⟨fun x => if x = p then l' else w.link x, fun n => w.luck (n + 1)⟩).2
    have hworse : ∀ s, a.down s = true → (if s = p then l'.cut else a.down s) = true := by
      intro s hs
      split
      · rename_i h; rw [h, hdp, hc] at hs; cases hs
      · exact hs
    have honly : ∀ s, s ≠ p → (if s = p then l'.cut else a.down s) = a.down s := fun s hs => if_neg hs
    rcases hcase with ⟨hf, h1, h2, _⟩ | ⟨hf, h2, ⟨h1, _⟩ | ⟨h1, _⟩⟩
    · rw [h1, (hans _).1]
      refine ⟨_, hA, hworse, fun s hs _ => honly s (hp ▸ hs), .inl ⟨rfl, hsh.symm, ?_, fun h => by cases h⟩,
        fun hl => ⟨fun n => hl (n + 1), ?_, ?_⟩⟩
      · rw [hp, hdp, hc]
      · funext x; show (if x = p then l'.cut else a.down x) = _
        rw [h2]; split
        · rename_i e; rw [e, hdp, hc]
        · rfl
      · rw [hp, hdp, hc, if_neg (by decide), if_neg (fun h => by cases h.1)]
        exact Prod.ext rfl hsh.symm
    · rw [h1, (hans _).1]
      refine ⟨_, hA, hworse, fun s hs _ => honly s (hp ▸ hs), .inl ⟨rfl, hsh.symm, ?_, fun h => by cases h⟩,
        fun hl => (hf (hl 0)).elim⟩
      rw [hp, hdp, hc]
    · rw [h1]
      refine ⟨_, hA, hworse, fun s hs _ => honly s (hp ▸ hs), .inr ⟨rfl, .inl ?_, .inl rfl⟩,
        fun hl => (hf (hl 0)).elim⟩
      show (if (home req.key).1 = p then l'.cut else _) = true
      rw [if_pos hp, h2]

theorem set_wire {i : Item} (hi : GoodMetaItem i) : ∃ wire, (metaCall (.set i)).wire = .ok wire := by
  have h := C52_meta_call (.set i) (emptyStore 0) ⟨emptyStore_good 0, fun _ _ h => by simp [emptyStore] at h⟩ hi
  obtain ⟨wire, hw, _⟩ := exchange_inv (res := (metaApi (emptyStore 0) (.set i)).1) (st' := (metaApi (emptyStore 0) (.set i)).2) h
  exact ⟨wire, hw⟩

/-- One Set on one connection; `sh` are the values there are once it is carried out. -/
theorem set_one {home : Bytes → S × S} {n : Nat} {w : Sea S} {a : Site S} (ha : Amounts home (n + 1) w a) {i : Item}
    (hi : GoodMetaItem i) (hcas : i.cas = 0) (s : S) (sh : Shelf) (hnow : sh.now = a.shelf.now) (hsm : Small sh)
    (hd : ∀ k, (home k).1 = s → (w.link s).cut = false → sh.data k
      = (((w.link s).store.put i.key i.value (metaFlagsOf i) (expiryOf a.shelf.now i.expiration)).data k).map
          fun e => (e.value, e.expiry))
    (ho : ∀ k, (home k).1 ≠ s → sh.data k = a.shelf.data k) :
    ∃ b, Amounts home n (w.call s (.set i)).2 b ∧ (∀ x, x ≠ s → b.down x = a.down x)
      ∧ (a.down s = true → b = a ∧ (w.call s (.set i)).1 = .err .io)
      ∧ (a.down s = false → ((w.call s (.set i)).1 = .ok .done ∧ b.shelf = sh
          ∨ (w.call s (.set i)).1 = .err .io ∧ b.down s = true ∧ (b.shelf = a.shelf ∨ b.shelf = sh))
        ∧ (w.luck 0 = .fine → (w.call s (.set i)).1 = .ok .done ∧ b.down s = false))
      ∧ (w.call s (.set i)).2.luck = fun n => w.luck (n + 1) := by
  obtain ⟨wire, hwire⟩ := set_wire hi
  have hds := ha.down s
  cases hc : (w.link s).cut with
  | true =>
    obtain ⟨h1, h2, h3, h4⟩ := call_dead (ha.kept s) hc (o := .set i) trivial hwire (w.luck 0)
    have hA := amounts_put ha s (l := ((w.link s).call (w.luck 0) (.set i)).2) (sh := a.shelf)
      (fun n => w.luck (n + 1)) h2 (fun h => by rw [h3] at h; cases h) rfl ha.small (fun k _ h => by rw [h3] at h; cases h)
      (fun _ _ => rfl)
    rw [h3, same_site (by rw [hds, hc])] at hA
    exact ⟨a, hA, fun _ _ => rfl, fun _ => ⟨rfl, h1⟩, fun h => (by rw [hds, hc] at h; cases h), rfl⟩
  | false =>
    obtain ⟨g1, g2, g3⟩ := ha.store s hc
    have hx := C52_meta_call (.set i) (w.link s).store g1 hi
    have hnext := metaApi_next (.set i) (w.link s).store g1 hi (by omega)
    rw [set_plain i _ hcas, g3] at hx hnext
    dsimp only at hnext
    obtain ⟨hk, hcase⟩ := call_live (ha.kept s) hc (o := .set i) trivial hx (w.luck 0)
    have hres : (w.call s (.set i)).1 = ((w.link s).call (w.luck 0) (.set i)).1 := rfl
    have hsea : (w.call s (.set i)).2 = ⟨fun x => if x = s then ((w.link s).call (w.luck 0) (.set i)).2 else w.link x,
        fun n => w.luck (n + 1)⟩ := rfl
    rw [hres, hsea]
    generalize ((w.link s).call (w.luck 0) (.set i)).2 = l' at hk hcase
    have hds' : ¬ a.down s = true := by rw [hds, hc]; decide
    rcases hcase with ⟨hf, h1, h2, h3⟩ | ⟨hf, h2, h1⟩
    · have hA := amounts_put ha s (l := l') (sh := sh) (fun n => w.luck (n + 1)) hk
        (fun _ => by rw [h3]; exact ⟨⟨hnext.1.1, hnext.2⟩, by have := hnext.1.2; omega, g3⟩) hnow hsm
        (fun k hk _ => by rw [h3]; exact hd k hk hc) ho
      refine ⟨_, hA, fun x hx => if_neg hx, fun h => (hds' h).elim, fun _ => ⟨.inl ⟨h1, rfl⟩, fun _ => ⟨h1, ?_⟩⟩, rfl⟩
      show (if s = s then l'.cut else _) = _
      rw [if_pos rfl, h2]
    · have hA : ∀ sh', sh' = a.shelf ∨ sh' = sh → Amounts home n ⟨fun x => if x = s then l' else w.link x, fun n => w.luck (n + 1)⟩
          ⟨sh', fun x => if x = s then l'.cut else a.down x⟩ := by
        intro sh' he
        refine amounts_put ha s (l := l') (sh := sh') (fun n => w.luck (n + 1)) hk (fun h => by rw [h2] at h; cases h) ?_ ?_
          (fun k _ h => by rw [h2] at h; cases h) ?_
        · rcases he with rfl | rfl
          · rfl
          · exact hnow
        · rcases he with rfl | rfl
          · exact ha.small
          · exact hsm
        · rcases he with rfl | rfl
          · exact fun _ _ => rfl
          · exact ho
      have hdn : (if s = s then l'.cut else a.down s) = true := by rw [if_pos rfl, h2]
      rcases h1 with ⟨h1, h3⟩ | ⟨h1, h3 | h3⟩
      · exact ⟨_, hA sh (.inr rfl), fun x hx => if_neg hx, fun h => (hds' h).elim,
          fun _ => ⟨.inl ⟨h1, rfl⟩, fun h => (hf h).elim⟩, rfl⟩
      · exact ⟨_, hA _ (.inl rfl), fun x hx => if_neg hx, fun h => (hds' h).elim,
          fun _ => ⟨.inr ⟨h1, hdn, .inl rfl⟩, fun h => (hf h).elim⟩, rfl⟩
      · exact ⟨_, hA sh (.inr rfl), fun x hx => if_neg hx, fun h => (hds' h).elim,
          fun _ => ⟨.inr ⟨h1, hdn, .inr rfl⟩, fun h => (hf h).elim⟩, rfl⟩

/-- A Set. -/
theorem took_set {H : Hashes} {name : S → Bytes} {r : ReplicaPool S} {home : Bytes → S × S} (hh : HomeOf H r home)
    (hsec : ∀ k k', (home k).1 ≠ (home k').2)
    {n : Nat} {w : Sea S} {a : Site S} (ha : Amounts home (n + 2) w a) {req : Request} (ho : req.opcode = opSet)
    {o : SetOpt} (hso : req.setOpt = some o) (hcas : o.casValue = 0) (hi : GoodMetaItem (itemOf req o)) :
    ∃ b, Took home n w a req true (linkRouter H name r w req).1 (linkRouter H name r w req).2 b := by
  rw [set_eq ho hso (hh req.key).1 (hh req.key).2]
  have hne := hsec req.key req.key
  have hpq := fun k => hsec k req.key
  have hhome : ∀ k, (home k).1 ≠ (home req.key).1 → k ≠ req.key := fun k h e => h (by rw [e])
  generalize hp : (home req.key).1 = p at hne hhome
  generalize hq : (home req.key).2 = q at hne hpq
  have hans : shelfAnswer a.shelf req = (.ok [{}], a.shelf.put req.key req.value o.expiration) := by
    unfold shelfAnswer
    rw [if_neg (by rw [ho]; decide), if_pos ho, hso]
  generalize hsh : a.shelf.put req.key req.value o.expiration = sh at hans
  have hshd : ∀ k, sh.data k = if k = req.key then some (req.value, expiryOf a.shelf.now o.expiration) else a.shelf.data k := by
    intro k; rw [← hsh]; rfl
  have hshn : sh.now = a.shelf.now := by rw [← hsh]; rfl
  have hshs : Small sh := by rw [← hsh]; exact small_put ha.small hi.good.value _
  have hd1 : ∀ k, (home k).1 = p → (w.link p).cut = false → sh.data k
      = (((w.link p).store.put (itemOf req o).key (itemOf req o).value (metaFlagsOf (itemOf req o))
          (expiryOf a.shelf.now (itemOf req o).expiration)).data k).map fun e => (e.value, e.expiry) := by
    intro k hk hc
    rw [hshd]
    simp only [Store.put, Store.write]
    show _ = Option.map _ (if k = req.key then _ else _)
    split
    · rfl
    · have := ha.data k (by rw [hk]; exact hc)
      rw [hk] at this; exact this
  obtain ⟨b, hA, hdb, hdead, hlive, hluck⟩ := set_one ha hi hcas p sh hshn hshs hd1
    (fun k hk => by rw [hshd, if_neg (hhome k hk)])
  generalize hw1 : (w.call p (.set (itemOf req o))) = c1 at hA hdead hlive hluck
  have e1 : onLink p (.set (itemOf req o)) outDone w = (taken outDone c1.1, c1.2) := by unfold onLink; rw [hw1]
  rw [e1]
  have luck1 : (∀ m, w.luck m = .fine) → ∀ m, c1.2.luck m = .fine := fun hl m => by rw [hluck]; exact hl (m + 1)
  -- the second call
  have second : ∀ c1r : Res Out × Sea S, c1r = c1 → c1r.1 = .ok .done →
      ∃ b2 y, (match (taken outDone c1r.1, c1r.2) with
      | (.ok _, w1) =>
        match onLink q (.set (itemOf req o)) outDone w1 with
        | (.ok _, w2) => (.ok [{}], w2)
        | (.err e, w2) => (failed e, w2)
        | (.panic, w2) => (.panic, w2)
      | (.err e, w1) => (failed e, w1)
      | (.panic, w1) => (.panic, w1)) = (y, (c1r.2.call q (.set (itemOf req o))).2)
      ∧ Amounts home n (c1r.2.call q (.set (itemOf req o))).2 b2 ∧ (∀ x, x ≠ q → b2.down x = b.down x) ∧ b2.shelf = b.shelf
      ∧ (b.down q = true → b2 = b ∧ y = .err .io)
      ∧ (b.down q = false → (y = .ok [{}] ∨ y = .err .io ∧ b2.down q = true)
          ∧ (c1r.2.luck 0 = .fine → y = .ok [{}] ∧ b2.down q = false))
      ∧ (c1r.2.call q (.set (itemOf req o))).2.luck = fun n => c1r.2.luck (n + 1) := by
    rintro _ rfl hok
    obtain ⟨b2, g1, g2, g3, g4, g5⟩ := set_one hA hi hcas q b.shelf rfl hA.small (fun k hk _ => (hpq k hk).elim) (fun _ _ => rfl)
    rw [hok]
    simp only [taken, outDone, onLink]
    cases hbq : b.down q with
    | true =>
      obtain ⟨k1, k2⟩ := g3 hbq
      rw [k2]
      exact ⟨b2, .err .io, rfl, g1, g2, by rw [k1], fun _ => ⟨k1, rfl⟩, fun h => (by cases h), g5⟩
    | false =>
      obtain ⟨k1, k2⟩ := g4 hbq
      rcases k1 with ⟨k1, k3⟩ | ⟨k1, k3, k4⟩
      · rw [k1]
        exact ⟨b2, .ok [{}], rfl, g1, g2, k3, fun h => (by cases h), fun _ => ⟨.inl rfl, fun h => ⟨rfl, (k2 h).2⟩⟩, g5⟩
      · rw [k1]
        refine ⟨b2, .err .io, rfl, g1, g2, k4.elim id id, fun h => (by cases h), fun _ => ⟨.inr ⟨rfl, k3⟩, fun h => ?_⟩, g5⟩
        have := (k2 h).1
        rw [k1] at this
        cases this
  cases hcp : a.down p with
  | true =>
    obtain ⟨rfl, hres⟩ := hdead hcp
    rw [hres]
    refine ⟨b, amounts_mono hA, fun _ h => h, fun _ _ _ => rfl, .inr ⟨rfl, .inl (by rw [hp]; exact hcp), .inl rfl⟩,
      fun hl => ⟨luck1 hl, rfl, ?_⟩⟩
    rw [hp, hcp, if_pos rfl]
    rfl
  | false =>
    obtain ⟨hcase, hfine⟩ := hlive hcp
    have bq : b.down q = a.down q := hdb q (Ne.symm hne)
    rcases hcase with ⟨hok, hbs⟩ | ⟨herr, hbd, hbs⟩
    · obtain ⟨b2, y, h1, h2, h3, h4, h5, h6, h7⟩ := second c1 rfl hok
      rw [h1]
      dsimp only
      refine ⟨b2, h2, fun s hs => ?_, fun s h1 h2 => ?_, ?_, fun hl => ?_⟩
      · by_cases hsq : s = q
        · subst hsq
          rw [← bq] at hs
          rw [(h5 hs).1]; exact hs
        · rw [h3 s hsq]
          by_cases hsp : s = p
          · subst hsp; rw [hcp] at hs; cases hs
          · rw [hdb s hsp]; exact hs
      · rw [hp] at h1
        rw [hq] at h2
        have hsq : s ≠ q := h2.resolve_left (by decide)
        rw [h3 s hsq, hdb s h1]
      · rw [hans, hp, hq]
        cases hbq : b.down q with
        | true =>
          obtain ⟨rfl, hy⟩ := h5 hbq
          exact .inr ⟨hy, .inr ⟨rfl, hbq⟩, .inr ⟨hcp, hbs⟩⟩
        | false =>
          rcases (h6 hbq).1 with hy | ⟨hy, hd⟩
          · exact .inl ⟨hy, by rw [h4, hbs], hcp, fun _ => by rw [← bq]; exact hbq⟩
          · exact .inr ⟨hy, .inr ⟨rfl, hd⟩, .inr ⟨hcp, by rw [h4, hbs]⟩⟩
      · have hbp := (hfine (hl 0)).2
        have hbdown : b.down = a.down := by
          funext x
          by_cases hx : x = p
          · subst hx; rw [hbp, hcp]
          · exact hdb x hx
        refine ⟨fun m => by rw [h7]; exact luck1 hl (m + 1), ?_, ?_⟩
        · funext x
          by_cases hx : x = q
          · subst hx
            cases hbq : b.down x with
            | true => rw [(h5 hbq).1, hbdown]
            | false => rw [((h6 hbq).2 (luck1 hl 0)).2, ← bq, hbq]
          · rw [h3 x hx, hbdown]
        · rw [hp, hq, hcp, if_neg (by decide), hans, ← bq, h4, hbs]
          cases hbq : b.down q with
          | true => rw [if_pos ⟨rfl, rfl⟩, (h5 hbq).2]
          | false => rw [if_neg (fun h => by cases h.2), ((h6 hbq).2 (luck1 hl 0)).1]
    · rw [herr]
      refine ⟨b, amounts_mono hA, fun s hs => ?_, fun s h1 h2 => ?_, ?_, fun hl => ?_⟩
      · by_cases hsp : s = p
        · subst hsp; rw [hcp] at hs; cases hs
        · rw [hdb s hsp]; exact hs
      · rw [hp] at h1; exact hdb s h1
      · rw [hans, hp, hq]
        exact .inr ⟨rfl, .inl hbd, hbs.imp id fun h => ⟨hcp, h⟩⟩
      · have := (hfine (hl 0)).1
        rw [herr] at this
        cases this

/-! ### calls and histories -/

omit [DecidableEq S] in
theorem site_ext {a b : Site S} (h1 : b.shelf = a.shelf) (h2 : b.down = a.down) : b = a := by
  cases a; cases b; cases h1; cases h2; rfl

theorem useReq_key (u : Use) : (useReq u).key = u.key := by cases u <;> rfl

/-- One call. -/
theorem use_step {H : Hashes} {name : S → Bytes} {ps qs : List S} {r : ReplicaPool S} (hr : TwoRings H name ps qs r)
    {home : Bytes → S × S} (hh : HomeOf H r home) {n : Nat} {w : Sea S} {a : Site S} (ha : Amounts home (n + 2) w a)
    (u : Use) (hu : u.Good) :
    ∃ y b w', ((∃ x, y = .answered x ∧ Served (linkRouter H name r) u.protocol w u.call x w')
        ∨ y = .dropped ∧ Dropped (linkRouter H name r) u.protocol w u.call w')
      ∧ Amounts home n w' b ∧ a.May home u y b
      ∧ ((∀ m, w.luck m = .fine) → (∀ m, w'.luck m = .fine) ∧ (y, b) = a.use home u) := by
  have hsec : ∀ k k', (home k).1 ≠ (home k').2 := fun k k' => hr.ne (hh k).1 (hh k').2
  have hreq := use_request u hu
  have hkey := useReq_key u
  have htook : ∃ b, Took home n w a (useReq u) u.writes (linkRouter H name r w (useReq u)).1
      (linkRouter H name r w (useReq u)).2 b := by
    cases u with
    | metaGet k => exact took_get hh (amounts_mono ha) rfl (hreq.1 rfl)
    | binGet h k => exact took_get hh (amounts_mono ha) rfl (hreq.1 rfl)
    | textSet i => obtain ⟨o, h1, h2, h3⟩ := hreq.2 rfl; exact took_set hh hsec ha rfl h1 h2 (by unfold itemOf; rw [h2]; exact h3)
    | metaSet i => obtain ⟨o, h1, h2, h3⟩ := hreq.2 rfl; exact took_set hh hsec ha rfl h1 h2 (by unfold itemOf; rw [h2]; exact h3)
    | binSet h i => obtain ⟨o, h1, h2, h3⟩ := hreq.2 rfl; exact took_set hh hsec ha rfl h1 h2 (by unfold itemOf; rw [h2]; exact h3)
  obtain ⟨b, hb⟩ := htook
  obtain ⟨res, h1, h2, h3⟩ := use_answer u hu ha.small
  have harr := use_arrives u hu
  have honly := hb.only
  have hresult := hb.result
  have hcalm := hb.calm
  rw [hkey, h1, h3] at hresult
  rw [hkey] at honly hcalm
  cases hx : linkRouter H name r w (useReq u) with
  | mk x w' =>
    have hA := hb.amounts
    rw [hx] at hresult hcalm hA
    dsimp only at hresult hcalm hA
    rcases hresult with ⟨rfl, g2, g3, g4⟩ | ⟨rfl, g2, g3⟩
    · refine ⟨.answered (u.outcome a.shelf).1, b, w', .inl ⟨_, rfl, served_of harr hx h2⟩, hA,
        ⟨hb.worse, honly, fun x hx => ?_, fun h => by cases h⟩, fun hl => ⟨(hcalm hl).1, ?_⟩⟩
      · cases hx; exact ⟨rfl, g2, g3, g4⟩
      · have hbd := (hcalm hl).2.1
        unfold Site.use
        rw [if_neg (by rw [g3]; decide), if_neg (fun h => by rw [g4 h.1] at h; cases h.2), ← g2, ← hbd]
    · refine ⟨.dropped, b, w', .inr ⟨rfl, dropped_of harr hx⟩, hA,
        ⟨hb.worse, honly, fun x hx => (by cases hx), fun _ => ⟨g2, g3⟩⟩, fun hl => ⟨(hcalm hl).1, ?_⟩⟩
      obtain ⟨_, hbd, hc⟩ := hcalm hl
      unfold Site.use
      cases hp : a.down (home u.key).1 with
      | true =>
        rw [hp, if_pos rfl] at hc
        rw [if_pos rfl]
        have : b.shelf = a.shelf := congrArg Prod.snd hc
        rw [site_ext this hbd]
      | false =>
        rw [hp, if_neg (by decide)] at hc
        rw [if_neg (by decide)]
        by_cases hq : u.writes = true ∧ a.down (home u.key).2 = true
        · rw [if_pos hq, h3] at hc
          rw [if_pos hq, ← hbd]
          have : b.shelf = (u.outcome a.shelf).2 := congrArg Prod.snd hc
          rw [← this]
        · rw [if_neg hq] at hc
          have := congrArg Prod.fst hc
          rw [h1] at this
          cases this

theorem amounts_tick {home : Bytes → S × S} {n : Nat} {w : Sea S} {a : Site S} (h : Amounts home n w a) (d : Nat) :
    Amounts home n (w.tick d) (a.tick d) :=
  ⟨fun s => ⟨(h.kept s).raw, (h.kept s).timeout, (h.kept s).inbox, (h.kept s).live⟩, h.down,
    fun s hs => ⟨(h.store s hs).1.tick d, (h.store s hs).2.1, congrArg (· + d) (h.store s hs).2.2⟩, h.small, h.data⟩

theorem amounts_cut {home : Bytes → S × S} {n : Nat} {w : Sea S} {a : Site S} (h : Amounts home n w a) (s : S) (st : Store) :
    Amounts home n (w.put s { w.link s with store := st, cut := true }) (a.cut s) := by
  refine ⟨fun x => ?_, fun x => ?_, fun x hx => ?_, h.small, fun k hx => ?_⟩
  · unfold Sea.put; dsimp only; split
    · have := h.kept s
      exact ⟨this.raw, this.timeout, this.inbox, fun h => by cases h⟩
    · exact h.kept x
  · unfold Sea.put Site.cut; dsimp only; split
    · rfl
    · exact h.down x
  · unfold Sea.put at hx ⊢; dsimp only at hx ⊢
    split
    · rename_i e; rw [if_pos e] at hx; cases hx
    · rename_i e; rw [if_neg e] at hx; exact h.store x hx
  · unfold Sea.put at hx ⊢; dsimp only at hx ⊢
    split
    · rename_i e; rw [if_pos e] at hx; cases hx
    · rename_i e; rw [if_neg e] at hx; exact h.data k hx

theorem amounts_dialled {H : Hashes} {r : ReplicaPool S} {home : Bytes → S × S} (hh : HomeOf H r home) {st : S → Store} {t n : Nat}
    (ht : ∀ s, (st s).now = t) (hw : Healthy st n) (luck : Nat → Weather) :
    Amounts home n (Sea.dialled st luck) ⟨onPrimaries H r t st, fun _ => false⟩ := by
  have hdata : ∀ k, (onPrimaries H r t st).data k = ((st (home k).1).data k).map fun e => (e.value, e.expiry) := by
    intro k
    unfold onPrimaries
    dsimp only
    rw [(hh k).1]
  refine ⟨fun s => ⟨rfl, rfl, rfl, fun _ => ⟨rfl, rfl⟩⟩, fun s => rfl, fun s _ => ⟨(hw.1 s).1, (hw.1 s).2, ht s⟩, ?_, fun k _ => hdata k⟩
  intro k v x hd
  rw [hdata] at hd
  cases he : (st (home k).1).data k with
  | none => rw [he] at hd; cases hd
  | some e =>
    rw [he] at hd
    cases hd
    exact ((hw.1 (home k).1).1.good.entry k e he).2.2.1

theorem any_run {H : Hashes} {name : S → Bytes} {ps qs : List S} {r : ReplicaPool S} (hr : TwoRings H name ps qs r)
    {home : Bytes → S × S} (hh : HomeOf H r home) (evs : List (Happening S)) (hg : ∀ e ∈ evs, e.Good)
    {w : Sea S} {a : Site S} (ha : Amounts home (2 * evs.length) w a) :
    ∃ ys w' b, Witnessed (linkRouter H name r) w evs ys w' ∧ Behaves home a evs ys b
      ∧ ((∀ m, w.luck m = .fine) → (ys, b) = runSite home a evs) := by
  induction evs generalizing w a with
  | nil => exact ⟨[], w, a, .nil w, .nil a, fun _ => rfl⟩
  | cons e evs ih =>
    have hge := hg e (List.mem_cons_self ..)
    have hgs : ∀ e ∈ evs, e.Good := fun x hx => hg x (List.mem_cons_of_mem _ hx)
    have ha2 : Amounts home (2 * evs.length + 2) w a := by
      have : 2 * (e :: evs).length = 2 * evs.length + 2 := by simp [Nat.mul_add]
      rw [this] at ha; exact ha
    have ha0 : Amounts home (2 * evs.length) w a := amounts_mono (amounts_mono ha2)
    cases e with
    | use d u =>
      obtain ⟨y, b, w', hy, hA, hmay, hcalm⟩ := use_step hr hh (amounts_tick ha2 d) u hge
      obtain ⟨ys, w2, c, h1, h2, h3⟩ := ih hgs hA
      refine ⟨y :: ys, w2, c, ?_, .use hmay h2, fun hl => ?_⟩
      · rcases hy with ⟨x, rfl, hs⟩ | ⟨rfl, hs⟩
        · exact .answered hs h1
        · exact .dropped hs h1
      · obtain ⟨l1, l2⟩ := hcalm hl
        have := h3 l1
        simp only [runSite]
        rw [← l2]
        dsimp only
        rw [← this]
    | cut s =>
      obtain ⟨ys, w2, c, h1, h2, h3⟩ := ih hgs (amounts_cut ha0 s (w.link s).store)
      exact ⟨ys, w2, c, .cut h1, .cut h2, h3⟩
    | restart s st =>
      obtain ⟨ys, w2, c, h1, h2, h3⟩ := ih hgs (amounts_cut ha0 s st)
      exact ⟨ys, w2, c, .restart h1, .restart h2, h3⟩

/-- C60: a router that has connected to its servers, any history of calls by users, of connections to
memcached servers breaking between calls, and of memcached servers being restarted: users see exactly
what `runSite` says.  In particular a restarted server is never used again. -/
theorem C60_history {H : Hashes} {name : S → Bytes} {ps qs : List S} {r : ReplicaPool S} (hr : TwoRings H name ps qs r)
    {home : Bytes → S × S} (hh : HomeOf H r home) (evs : List (Happening S)) (hg : ∀ e ∈ evs, e.Good)
    (t : Nat) {st : S → Store} (ht : ∀ s, (st s).now = t) (hw : Healthy st (2 * evs.length)) :
    ∃ w', Witnessed (linkRouter H name r) (Sea.dialled st fun _ => .fine) evs
      (runSite home ⟨onPrimaries H r t st, fun _ => false⟩ evs).1 w' := by
  obtain ⟨ys, w', b, h1, _, h3⟩ := any_run (name := name) hr hh evs hg (amounts_dialled hh ht hw fun _ => .fine)
  have := h3 fun _ => rfl
  rw [← this]
  exact ⟨w', h1⟩

/-! #### what is witnessed is determined -/

theorem serve_nil {σ : Type} (h : Handler σ) (p : Protocol) (s : σ) : serve h (some p) s [] = ⟨[], [], s, .closed⟩ := by
  rw [serve_eq]
  cases p <;> rfl

theorem served_det {σ α : Type} {h : Handler σ} {p : Protocol} {s s1 s2 : σ} {c : Call α} {x1 x2 : Res α}
    (h1 : Served h p s c x1 s1) (h2 : Served h p s c x2 s2) : x1 = x2 ∧ s1 = s2 := by
  obtain ⟨w1, r1, a1, b1, c1⟩ := h1
  obtain ⟨w2, r2, a2, b2, c2⟩ := h2
  rw [a1] at a2
  cases a2
  obtain ⟨d1, e1, _⟩ := b1 none [] (.inl rfl)
  obtain ⟨d2, e2, _⟩ := b2 none [] (.inl rfl)
  rw [serve_nil] at d1 d2 e1 e2
  rw [d1] at d2
  rw [e1] at e2
  have hr : r1 = r2 := by simpa using d2
  subst hr
  have := c1 []
  rw [c2 []] at this
  exact ⟨(congrArg Prod.fst this).symm, e2⟩

theorem dropped_det {σ α : Type} {h : Handler σ} {p : Protocol} {s s1 s2 : σ} {c : Call α}
    (h1 : Dropped h p s c s1) (h2 : Dropped h p s c s2) : s1 = s2 := by
  obtain ⟨w1, a1, b1⟩ := h1
  obtain ⟨w2, a2, b2⟩ := h2
  rw [a1] at a2
  cases a2
  exact (b1 none [] (.inl rfl)).2.1.symm.trans (b2 none [] (.inl rfl)).2.1

theorem use_empty (u : Use) : (u.call.rd []).1 = .err .io := by
  cases u with
  | textSet i => exact (C22_no_reply [] {} {} (.set i)).1
  | metaGet k => exact (C22_no_reply [] {} {} (.get k)).2.1
  | metaSet i => exact (C22_no_reply [] {} {} (.set i)).2.1
  | binGet h k => exact (C22_no_reply [] h h (.get k)).2.2
  | binSet h i => exact (C22_no_reply [] h h (.set i)).2.2

theorem served_not_dropped {σ : Type} {h : Handler σ} {p : Protocol} {s s1 s2 : σ} {u : Use} (hu : u.Good) {x : Res Out}
    (h1 : Served h p s u.call x s1) (h2 : Dropped h p s u.call s2) : False := by
  obtain ⟨w1, r1, a1, b1, c1⟩ := h1
  obtain ⟨w2, a2, b2⟩ := h2
  rw [a1] at a2
  cases a2
  obtain ⟨d1, _⟩ := b1 none [] (.inl rfl)
  obtain ⟨d2, _⟩ := b2 none [] (.inl rfl)
  rw [serve_nil, d2] at d1
  have hr : r1 = [] := by simpa using d1.symm
  subst hr
  have hx : x = .err .io := by
    have := c1 []
    rw [List.append_nil] at this
    rw [← use_empty u, this]
  subst hx
  obtain ⟨res, _, ⟨b, _, hb⟩, _⟩ := use_answer u hu (s := ⟨fun _ => none, 0⟩) (fun k v x h => by cases h)
  have := hb []
  have h3 := c1 (b ++ [])
  rw [List.nil_append, this] at h3
  have h4 := congrArg Prod.fst h3
  cases u <;> cases h4

theorem witnessed_det {h : Handler (Sea S)} {w : Sea S} {evs : List (Happening S)} (hg : ∀ e ∈ evs, e.Good) {ys ys2 : List Sees}
    {w1 w2 : Sea S} (h1 : Witnessed h w evs ys w1) (h2 : Witnessed h w evs ys2 w2) : ys = ys2 ∧ w1 = w2 := by
  induction h1 generalizing ys2 w2 with
  | nil w => cases h2; exact ⟨rfl, rfl⟩
  | answered hs _ ih =>
    have hu : Happening.Good (.use _ _) := hg _ (List.mem_cons_self ..)
    cases h2 with
    | answered hs2 h3 =>
      obtain ⟨rfl, rfl⟩ := served_det hs hs2
      obtain ⟨rfl, rfl⟩ := ih (fun e he => hg e (List.mem_cons_of_mem _ he)) h3
      exact ⟨rfl, rfl⟩
    | dropped hs2 h3 => exact (served_not_dropped hu hs hs2).elim
  | dropped hs _ ih =>
    have hu : Happening.Good (.use _ _) := hg _ (List.mem_cons_self ..)
    cases h2 with
    | answered hs2 h3 => exact (served_not_dropped hu hs2 hs).elim
    | dropped hs2 h3 =>
      obtain rfl := dropped_det hs hs2
      obtain ⟨rfl, rfl⟩ := ih (fun e he => hg e (List.mem_cons_of_mem _ he)) h3
      exact ⟨rfl, rfl⟩
  | cut _ ih =>
    cases h2 with
    | cut h3 => exact ih (fun e he => hg e (List.mem_cons_of_mem _ he)) h3
  | restart _ ih =>
    cases h2 with
    | restart h3 => exact ih (fun e he => hg e (List.mem_cons_of_mem _ he)) h3

/-- C60: the same when connections may also break at any moment inside a call: whatever users see is
allowed by `Behaves`: every call is answered correctly or dropped, and dropped only if a server it needs
is lost. -/
theorem C60_any_moment {H : Hashes} {name : S → Bytes} {ps qs : List S} {r : ReplicaPool S} (hr : TwoRings H name ps qs r)
    {home : Bytes → S × S} (hh : HomeOf H r home) (evs : List (Happening S)) (hg : ∀ e ∈ evs, e.Good)
    (t : Nat) {st : S → Store} (ht : ∀ s, (st s).now = t) (hw : Healthy st (2 * evs.length)) (luck : Nat → Weather) :
    (∃ ys w', Witnessed (linkRouter H name r) (Sea.dialled st luck) evs ys w')
    ∧ ∀ ys w', Witnessed (linkRouter H name r) (Sea.dialled st luck) evs ys w' →
      ∃ b, Behaves home ⟨onPrimaries H r t st, fun _ => false⟩ evs ys b := by
  obtain ⟨ys, w', b, h1, h2, _⟩ := any_run (name := name) hr hh evs hg (amounts_dialled hh ht hw luck)
  refine ⟨⟨ys, w', h1⟩, fun ys2 w2 h3 => ?_⟩
  obtain ⟨rfl, _⟩ := witnessed_det hg h1 h3
  exact ⟨b, h2⟩

/-! #### consequences -/

/-- How many calls there are. -/
def numUses (evs : List (Happening S)) : Nat :=
  (evs.filter fun | .use _ _ => true | _ => false).length

omit [DecidableEq S] in
theorem numUses_use (d : Nat) (u : Use) (evs : List (Happening S)) : numUses (.use d u :: evs) = numUses evs + 1 := rfl

theorem behaves_split {home : Bytes → S × S} {pre post : List (Happening S)} {a b : Site S} {ys : List Sees}
    (h : Behaves home a (pre ++ post) ys b) :
    ∃ c zs ws, ys = zs ++ ws ∧ zs.length = numUses pre ∧ Behaves home a pre zs c ∧ Behaves home c post ws b := by
  induction pre generalizing a ys with
  | nil => exact ⟨a, [], ys, rfl, rfl, .nil a, h⟩
  | cons e pre ih =>
    cases h with
    | use hm h =>
      obtain ⟨c, zs, ws, rfl, h2, h3, h4⟩ := ih h
      exact ⟨c, _ :: zs, ws, rfl, by rw [numUses_use, List.length_cons, h2], .use hm h3, h4⟩
    | cut h =>
      obtain ⟨c, zs, ws, h1, h2, h3, h4⟩ := ih h
      exact ⟨c, zs, ws, h1, h2, .cut h3, h4⟩
    | restart h =>
      obtain ⟨c, zs, ws, h1, h2, h3, h4⟩ := ih h
      exact ⟨c, zs, ws, h1, h2, .restart h3, h4⟩

/-- The calls that need server `s`. -/
def Needs (home : Bytes → S × S) (s : S) : Happening S → Prop
  | .use _ u => (home u.key).1 = s ∨ u.writes = true ∧ (home u.key).2 = s
  | _ => True

theorem behaves_dead {home : Bytes → S × S} {s : S} {evs : List (Happening S)} {a b : Site S} {ys : List Sees}
    (h : Behaves home a evs ys b) (hd : a.down s = true) (hn : ∀ e ∈ evs, Needs home s e) : ∀ y ∈ ys, y = .dropped := by
  induction h with
  | nil => intro y hy; cases hy
  | @use a b c d u y rest ys hm _ ih =>
    have hne := hn _ (List.mem_cons_self ..)
    have hrest := ih (hm.worse s hd) (fun e he => hn e (List.mem_cons_of_mem _ he))
    intro z hz
    rcases List.mem_cons.1 hz with rfl | hz
    · cases z with
      | dropped => rfl
      | answered x =>
        obtain ⟨_, _, h1, h2⟩ := hm.right x rfl
        rcases hne with e | ⟨e1, e2⟩
        · rw [e] at h1; rw [show (a.tick d).down = a.down from rfl, hd] at h1; cases h1
        · have := h2 e1; rw [e2] at this; rw [show (a.tick d).down = a.down from rfl, hd] at this; cases this
    · exact hrest z hz
  | @cut a c s' rest ys _ ih =>
    refine ih ?_ (fun e he => hn e (List.mem_cons_of_mem _ he))
    show (if s = s' then true else a.down s) = true
    split
    · rfl
    · exact hd
  | @restart a c s' st rest ys _ ih =>
    refine ih ?_ (fun e he => hn e (List.mem_cons_of_mem _ he))
    show (if s = s' then true else a.down s) = true
    split
    · rfl
    · exact hd

/-- C60: once the connection to server `s` has broken, in any history and with any further breakages,
every Get whose primary is `s` and every Set whose primary or secondary is `s` is dropped, for ever, even
after `s` has been restarted. -/
theorem C60_never_again {H : Hashes} {name : S → Bytes} {ps qs : List S} {r : ReplicaPool S} (hr : TwoRings H name ps qs r)
    {home : Bytes → S × S} (hh : HomeOf H r home) (pre post : List (Happening S)) (s : S) (e : Happening S)
    (he : e = .cut s ∨ ∃ st, e = .restart s st)
    (hg : ∀ x ∈ pre ++ e :: post, x.Good) (hn : ∀ x ∈ post, Needs home s x)
    (t : Nat) {st : S → Store} (ht : ∀ s, (st s).now = t) (hw : Healthy st (2 * (pre ++ e :: post).length)) (luck : Nat → Weather)
    {ys : List Sees} {w' : Sea S} (hy : Witnessed (linkRouter H name r) (Sea.dialled st luck) (pre ++ e :: post) ys w') :
    ∃ before after, ys = before ++ after ∧ before.length = numUses pre ∧ ∀ y ∈ after, y = .dropped := by
  obtain ⟨b, hb⟩ := (C60_any_moment hr hh _ hg t ht hw luck).2 ys w' hy
  obtain ⟨c, zs, ws, h1, h2, _, h4⟩ := behaves_split hb
  refine ⟨zs, ws, h1, h2, ?_⟩
  have hc : (c.cut s).down s = true := if_pos rfl
  rcases he with rfl | ⟨st', rfl⟩
  · cases h4 with
    | cut h => exact behaves_dead h hc hn
  · cases h4 with
    | restart h => exact behaves_dead h hc hn

/-- C60: a Set whose secondary is lost is dropped, the user cannot know whether it was carried out; but it
was: later Gets return the value. -/
theorem C60_half_written {H : Hashes} {name : S → Bytes} {ps qs : List S} {r : ReplicaPool S} (hr : TwoRings H name ps qs r)
    {home : Bytes → S × S} (hh : HomeOf H r home) (u v : Use) (hu : u.Good) (hv : v.Good) (hsu : u.writes = true)
    (hsv : v.writes = false) (d : Nat) (t : Nat) {st : S → Store} (ht : ∀ s, (st s).now = t) (hw : Healthy st 6) :
    ∃ w', Witnessed (linkRouter H name r) (Sea.dialled st fun _ => .fine) [.cut (home u.key).2, .use 0 u, .use d v]
      [.dropped, .answered (v.outcome ((u.outcome (onPrimaries H r t st)).2.tick d)).1] w' := by
  have h := C60_history (name := name) hr hh [.cut (home u.key).2, .use 0 u, .use d v]
    (fun e he => by
      simp only [List.mem_cons, List.not_mem_nil, or_false] at he
      rcases he with rfl | rfl | rfl
      · trivial
      · exact hu
      · exact hv) t ht hw
  have hne : (home u.key).1 ≠ (home u.key).2 := hr.ne (hh u.key).1 (hh u.key).2
  have hk : (home v.key).1 ≠ (home u.key).2 := hr.ne (hh v.key).1 (hh u.key).2
  have hrun : (runSite home ⟨onPrimaries H r t st, fun _ => false⟩ [.cut (home u.key).2, .use 0 u, .use d v]).1
      = [.dropped, .answered (v.outcome ((u.outcome (onPrimaries H r t st)).2.tick d)).1] := by
    have ht0 : (onPrimaries H r t st).tick 0 = onPrimaries H r t st := rfl
    simp [runSite, Site.use, Site.cut, Site.tick, hne, hk, hsu, hsv, ht0]
  rw [hrun] at h
  exact h

/-- The calls that need none of the servers that get lost. -/
def KeepsOff (home : Bytes → S × S) (lost : S → Prop) : Happening S → Prop
  | .use _ u => ¬ lost (home u.key).1 ∧ (u.writes = true → ¬ lost (home u.key).2)
  | .cut s => lost s
  | .restart s _ => lost s

/-- The calls of a history. -/
def usesOf : List (Happening S) → List (Nat × Use)
  | [] => []
  | .use d u :: rest => (d, u) :: usesOf rest
  | _ :: rest => usesOf rest

theorem keepsOff_run {home : Bytes → S × S} {lost : S → Prop} (evs : List (Happening S)) (hk : ∀ e ∈ evs, KeepsOff home lost e)
    (a : Site S) (ha : ∀ s, a.down s = true → lost s) :
    (runSite home a evs).1 = (runUses a.shelf (usesOf evs)).1.map .answered := by
  induction evs generalizing a with
  | nil => rfl
  | cons e evs ih =>
    have hke := hk e (List.mem_cons_self ..)
    have hks : ∀ e ∈ evs, KeepsOff home lost e := fun x hx => hk x (List.mem_cons_of_mem _ hx)
    have hcut : ∀ s, lost s → ∀ x, (a.cut s).down x = true → lost x := by
      intro s hs x hx
      unfold Site.cut at hx
      dsimp only at hx
      split at hx
      · rename_i e; rw [e]; exact hs
      · exact ha x hx
    cases e with
    | use d u =>
      have h1 : ¬ (a.tick d).down (home u.key).1 = true := fun h => hke.1 (ha _ h)
      have h2 : ¬ (u.writes = true ∧ (a.tick d).down (home u.key).2 = true) := fun h => hke.2 h.1 (ha _ h.2)
      simp only [runSite, usesOf, runUses, Site.use, if_neg h1, if_neg h2, List.map_cons, List.cons.injEq]
      exact ⟨rfl, ih hks _ (fun s hs => ha s hs)⟩
    | cut s => exact ih hks (a.cut s) (hcut s hke)
    | restart s st => exact ih hks (a.cut s) (hcut s hke)

/-- C60: losing servers does not affect calls that do not need them: they are all answered, as if no
server had been lost. -/
theorem C60_others_unaffected {H : Hashes} {name : S → Bytes} {ps qs : List S} {r : ReplicaPool S} (hr : TwoRings H name ps qs r)
    {home : Bytes → S × S} (hh : HomeOf H r home) (evs : List (Happening S)) (hg : ∀ e ∈ evs, e.Good)
    (lost : S → Prop) (hk : ∀ e ∈ evs, KeepsOff home lost e)
    (t : Nat) {st : S → Store} (ht : ∀ s, (st s).now = t) (hw : Healthy st (2 * evs.length)) :
    ∃ w', Witnessed (linkRouter H name r) (Sea.dialled st fun _ => .fine) evs
      ((runUses (onPrimaries H r t st) (usesOf evs)).1.map .answered) w' := by
  have h := C60_history (name := name) hr hh evs hg t ht hw
  rw [keepsOff_run evs hk _ (fun s hs => by cases hs)] at h
  exact h

/-! ### a concrete router -/

/-- The homes of the keys in the pool `abc`. -/
def abcHome (k : Bytes) : Bytes × Bytes :=
  (match abc.primary.pick realHashes k with | .ok p => p | _ => [], b!"c")

theorem abcHome_of : HomeOf realHashes abc abcHome := by
  intro k
  obtain ⟨p, q, hp, hq⟩ := abc_rings.picks k
  refine ⟨?_, abc_c k⟩
  unfold abcHome
  rw [hp]

theorem abcHome_x : abcHome b!"x" = (b!"a", b!"c") := by unfold abcHome; rw [abc_a]
theorem abcHome_y : abcHome b!"y" = (b!"b", b!"c") := by unfold abcHome; rw [abc_b]

/-- `x` lives on `a`, `y` on `b`, and `c` is the secondary of both. -/
def outageStory : List (Happening Bytes) :=
  [.use 0 (.metaSet hello), .cut b!"a", .use 1 (.metaGet b!"x"), .use 1 (.binSet {} { hello with key := b!"y" }),
    .cut b!"c", .use 0 (.textSet { key := b!"y", value := b!"new" }), .use 1 (.binGet {} b!"y"),
    .restart b!"a" (emptyStore 0), .use 1 (.metaGet b!"x")]

theorem outageStory_good : ∀ e ∈ outageStory, e.Good := by
  intro e he
  have hy : GoodMetaItem { hello with key := b!"y" } :=
    ⟨⟨⟨by decide, by decide⟩, hello_good.good.value, hello_good.good.exp, hello_good.good.cas⟩, hello_good.flags⟩
  have hn : GoodMetaItem { key := b!"y", value := b!"new" } :=
    ⟨⟨⟨by decide, by decide⟩, by decide, by decide, by decide⟩, fun f hf => by cases hf⟩
  simp only [outageStory, List.mem_cons, List.not_mem_nil, or_false] at he
  rcases he with rfl | rfl | rfl | rfl | rfl | rfl | rfl | rfl | rfl
  · exact ⟨hello_good, rfl⟩
  · trivial
  · exact ⟨by decide, by decide⟩
  · exact ⟨hy, by decide⟩
  · trivial
  · exact ⟨hn, rfl⟩
  · exact ⟨by decide, by decide⟩
  · trivial
  · exact ⟨by decide, by decide⟩

/-- What users see in that history, wherever else keys live. -/
theorem outageStory_run (home : Bytes → Bytes × Bytes) (sh : Shelf) (hx : home b!"x" = (b!"a", b!"c"))
    (hy : home b!"y" = (b!"b", b!"c")) :
    (runSite home ⟨sh, fun _ => false⟩ outageStory).1
      = [.answered (.ok .done), .dropped, .answered (.ok .done), .dropped,
      .answered (.ok (.item { key := b!"y", value := b!"new", flags := some [] })), .dropped] := by
  have k1 : (Use.metaSet hello).key = b!"x" := rfl
  have k2 : (Use.metaGet b!"x").key = b!"x" := rfl
  have k3 : (Use.binSet {} { hello with key := b!"y" }).key = b!"y" := rfl
  have k4 : (Use.textSet { key := b!"y", value := b!"new" }).key = b!"y" := rfl
  have k5 : (Use.binGet {} b!"y").key = b!"y" := rfl
  simp only [outageStory, runSite, Site.use, Site.cut, Site.tick, k1, k2, k3, k4, k5, hx, hy, Use.writes]
  have hxy : ¬ (b!"y" : Bytes) = b!"x" := by decide
  have hab : ¬ (b!"b" : Bytes) = b!"a" := by decide
  have hac : ¬ (b!"a" : Bytes) = b!"c" := by decide
  have hca : ¬ (b!"c" : Bytes) = b!"a" := by decide
  have hbc : ¬ (b!"b" : Bytes) = b!"c" := by decide
  simp [hab, hac, hca, hbc, Use.outcome, Shelf.value, Shelf.put, Shelf.tick, fresh, expiryOf]

/-- C60, a concrete history of the router over real connections. -/
theorem C60_concrete : ∃ w', Witnessed (linkRouter realHashes id abc) (Sea.dialled empties fun _ => .fine) outageStory
    [.answered (.ok .done), .dropped, .answered (.ok .done), .dropped,
      .answered (.ok (.item { key := b!"y", value := b!"new", flags := some [] })), .dropped] w' := by
  have h := C60_history (name := id) abc_rings abcHome_of outageStory outageStory_good 1000 (st := empties) (fun _ => rfl)
    (empties_healthy _ (by decide))
  rw [outageStory_run _ _ abcHome_x abcHome_y] at h
  exact h

end Props
end Verif
