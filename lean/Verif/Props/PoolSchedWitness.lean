import Verif.Props.PoolSched
import Verif.Props.ReplicaWitness
/-!
C67: concrete runs of one `SinglePool` used by several goroutines, under the real hash functions.  They show that
`C67_refines` cannot be improved: a `GetMulti` over two servers and a `Flush` of two servers are not carried out at one
moment.
-/

namespace Verif
namespace Props
open Kv Spec Mc Pool Cluster

set_option maxRecDepth 100000

section
variable {S : Type} [DecidableEq S]

/-- What is left of call `j`, replaced. -/
def setCall (c : Nat → Option (Prog S)) (j : Nat) (pr : Prog S) : Nat → Option (Prog S) := fun x => if x = j then some pr else c x

omit [DecidableEq S] in
theorem setCall_at (c : Nat → Option (Prog S)) (j : Nat) (pr : Prog S) : setCall c j pr j = some pr := if_pos rfl
omit [DecidableEq S] in
theorem setCall_off (c : Nat → Option (Prog S)) {i j : Nat} (pr : Prog S) (h : i ≠ j) : setCall c j pr i = c i := if_neg h

theorem pool_begins {H : Hashes} {name : S → Bytes} {r : Ring S} {or : Orders S} {jobs : List Step} {y : Pool.Sys S} {j : Nat}
    {o : Op} {pr : Prog S} (h : y.calls j = none) (hj : jobs[j]? = some (.op o))
    (hp : poolProg H name r (or.keys j) (or.servers j) o.noCas = pr) :
    y.step H name r or jobs (.run j) = ⟨y.world, setCall y.calls j pr⟩ := by
  subst hp
  simp only [Pool.Sys.step, h, hj]
  rfl

theorem pool_goes {H : Hashes} {name : S → Bytes} {r : Ring S} {or : Orders S} {jobs : List Step} {y : Pool.Sys S} {j : Nat}
    {s : S} {o : Op} {k : Res Out → Prog S} {res : Res Out} {w : World S} {pr : Prog S}
    (h : y.calls j = some (.call s o k)) (ht : textStep name s o y.world = (res, w)) (hp : k res = pr) :
    y.step H name r or jobs (.run j) = ⟨w, setCall y.calls j pr⟩ := by
  subst hp
  simp only [Pool.Sys.step, h, ht]
  rfl

theorem pool_cons {H : Hashes} {name : S → Bytes} {r : Ring S} {or : Orders S} {jobs : List Step} {y y' : Pool.Sys S} {m : Move}
    {ms : List Move} (h : y.step H name r or jobs m = y') : y.run H name r or jobs (m :: ms) = y'.run H name r or jobs ms := by
  subst h; rfl

omit [DecidableEq S] in
theorem returned_of {y : Pool.Sys S} {j : Nat} {a : Res Out} (h : y.calls j = some (.ret a)) : y.returned j = some a := by
  rw [returned_eq, h]; rfl

end

/-- The pool of the servers "a" and "b"; `Pick` gives "a" for the key "x" and "b" for the key "y". -/
def ab : Ring Bytes := abc.primary

theorem ab_ring : IsRing realHashes id [b!"a", b!"b"] ab := abc_rings.primary

theorem ab_names : DistinctNames (id : Bytes → Bytes) [b!"a", b!"b"] := fun _ _ _ _ h => h

/-- Maps gone through in the order in which they were filled. -/
def inOrder : Orders Bytes := ⟨fun _ => id, fun _ => id⟩

theorem goodSet (k v : Bytes) (hk : Key k) (hv : v.length ≤ maxValue) : GoodOp (.set { key := k, value := v }) :=
  ⟨hk, hv, (by decide : InRange 32 0), (by decide : 0 < 2 ^ 64)⟩

/-- Server "a" with "x", server "b" empty. -/
def worldX : World Bytes := World.update empties b!"a" ((emptyStore 1000).put b!"x" b!"1" 0 none)
/-- Server "a" with "x", server "b" with "y". -/
def worldXY : World Bytes := World.update worldX b!"b" ((emptyStore 1000).put b!"y" b!"2" 0 none)

theorem ab_setX : textStep (id : Bytes → Bytes) b!"a" (.set { key := b!"x", value := b!"1" }) empties = (.ok .done, worldX) :=
  textStep_eq id b!"a" _ empties (goodSet _ _ (by decide) (by decide)) (emptyStore_good 1000)

theorem good_put (k v : Bytes) (hk : v.length ≤ maxValue) : GoodStore ((emptyStore 1000).put k v 0 none) := by
  have := Next.store (emptyStore_good 1000) (by decide) .set k v 0 0 (by decide) hk (by decide)
  exact this.1

theorem ab_setY : textStep (id : Bytes → Bytes) b!"b" (.set { key := b!"y", value := b!"2" }) worldX = (.ok .done, worldXY) :=
  textStep_eq id b!"b" _ worldX (goodSet _ _ (by decide) (by decide)) (emptyStore_good 1000)

theorem ab_key (k : Bytes) (s : Bytes) (o : Op) (h : o.key? = some k) (hs : ab.pick realHashes k = .ok s) (j : Nat) :
    ∃ fin, poolProg realHashes id ab (inOrder.keys j) (inOrder.servers j) o = .call s o fin
      ∧ (∀ x, KindOf o x → fin (.ok x) = .ret (.ok x)) ∧ (∀ e, fin (.err e) = .ret (.err e)) ∧ fin .panic = .ret .panic :=
  poolProg_one realHashes id ab _ _ o k s h hs

theorem ab_map : keyMap (textEnv realHashes (id : Bytes → Bytes)) ab [b!"x", b!"y"] []
    = .ok [(b!"a", [b!"x"]), (b!"b", [b!"y"])] := by
  have hx : ab.pick realHashes b!"x" = .ok b!"a" := abc_a
  have hy : ab.pick realHashes b!"y" = .ok b!"b" := abc_b
  have hH : (textEnv realHashes (id : Bytes → Bytes)).H = realHashes := rfl
  simp only [keyMap, hH, hx, hy, Res.bind_ok]
  rfl

theorem ab_find_a : ab.find (id : Bytes → Bytes) b!"a" = some b!"a" := C05_find ab_ring ab_names _ (by decide)
theorem ab_find_b : ab.find (id : Bytes → Bytes) b!"b" = some b!"b" := C05_find ab_ring ab_names _ (by decide)

/-- What the `GetMulti` of the torn run returns. -/
def onlyY : Res Out := .ok (.items [{ key := b!"y", value := b!"2", flags := some [0, 0, 0, 0], server := b!"b" }])

/-- Three calls: `Set` of "x", `Set` of "y", `GetMulti` of both. -/
def tornJobs : List Step :=
  [.op (.set { key := b!"x", value := b!"1" }), .op (.set { key := b!"y", value := b!"2" }), .op (.getMulti [b!"x", b!"y"])]

/-- The `GetMulti` (call 2) begins and asks "a"; then call 0 begins and returns; then call 1 begins and returns; then
the `GetMulti` asks "b". -/
def tornMoves : List Move := [.run 2, .run 2, .run 0, .run 0, .run 1, .run 1, .run 2]

/-- The `GetMulti` before it asks "b". -/
def askY : Prog Bytes := .call b!"b" (.getMulti [b!"y"]) (andThen outItems fun items => multiProg id ab [] ([] ++ items))
/-- The `GetMulti` before it asks "a". -/
def askX : Prog Bytes :=
  .call b!"a" (.getMulti [b!"x"]) (andThen outItems fun items => multiProg id ab [(b!"b", [b!"y"])] ([] ++ items))

/-- C67: a `GetMulti` over two servers is not carried out at one moment: here the `Set` of "x" has returned before the
`Set` of "y" begins, and yet the `GetMulti` finds "y" and not "x"; one memcached answers that at no moment, whether
none, one or both of the `Set`s have been carried out. -/
theorem C67_getMulti_torn :
    (∀ j, ((Pool.Sys.start empties).run realHashes id ab inOrder tornJobs tornMoves).returned j
      = [some (Res.ok Out.done), some (Res.ok Out.done), some onlyY][j]?.join)
    ∧ ((Pool.Sys.start empties).run realHashes id ab inOrder tornJobs (tornMoves.take 4)).returned 0 = some (.ok .done)
    ∧ ((Pool.Sys.start empties).run realHashes id ab inOrder tornJobs (tornMoves.take 4)).calls 1 = none
    ∧ ∀ n ≤ 2, ¬ Alike onlyY
      (textApi [] (([Op.set { key := b!"x", value := b!"1" }, .set { key := b!"y", value := b!"2" }].take n).foldl
        (fun t o => (textApi [] t o).2) (emptyStore 1000)) (.getMulti [b!"x", b!"y"])).1 := by
  obtain ⟨fx, px, ox, -⟩ := ab_key b!"x" b!"a" (.set { key := b!"x", value := b!"1" }) rfl abc_a 0
  obtain ⟨fy, py, oy, -⟩ := ab_key b!"y" b!"b" (.set { key := b!"y", value := b!"2" }) rfl abc_b 1
  have pm : poolProg realHashes (id : Bytes → Bytes) ab (inOrder.keys 2) (inOrder.servers 2) (.getMulti [b!"x", b!"y"]) = askX := by
    show multiOn id ab id (keyMap (textEnv realHashes id) ab [b!"x", b!"y"] []) = _
    rw [ab_map]
    simp only [multiOn, id, multiProg]
    rw [ab_find_a]
    rfl
  have ga : textStep (id : Bytes → Bytes) b!"a" (.getMulti [b!"x"]) empties = (.ok (.items []), empties) := by
    have := textStep_eq id b!"a" (.getMulti [b!"x"]) empties ⟨by simp, by decide⟩ (emptyStore_good 1000)
    rw [this]
    have hu : World.update empties b!"a" (empties b!"a") = empties := by
      funext s; unfold World.update; split <;> rfl
    show (_, World.update empties b!"a" (empties b!"a")) = _
    rw [hu]
    rfl
  have pm' : multiProg (id : Bytes → Bytes) ab [(b!"b", [b!"y"])] ([] ++ []) = askY := by
    simp only [askY, multiProg, ab_find_b, List.nil_append]
  have gb : textStep (id : Bytes → Bytes) b!"b" (.getMulti [b!"y"]) worldXY = (onlyY, worldXY) := by
    have := textStep_eq id b!"b" (.getMulti [b!"y"]) worldXY ⟨by simp, by decide⟩ (good_put _ _ (by decide))
    rw [this]
    have hu : World.update worldXY b!"b" (worldXY b!"b") = worldXY := by
      funext s
      unfold World.update
      split
      · rename_i h; rw [h]
      · rfl
    show (_, World.update worldXY b!"b" (worldXY b!"b")) = _
    rw [hu]
    refine Prod.ext ?_ rfl
    show (textApi b!"b" ((emptyStore 1000).put b!"y" b!"2" 0 none) (.getMulti [b!"y"])).1 = onlyY
    decide +kernel
  have e1 : (Pool.Sys.start empties).step realHashes id ab inOrder tornJobs (.run 2) = ⟨empties, setCall (fun _ => none) 2 askX⟩ :=
    pool_begins rfl rfl pm
  have e2 : Pool.Sys.step realHashes id ab inOrder tornJobs ⟨empties, setCall (fun _ => none) 2 askX⟩ (.run 2)
      = ⟨empties, setCall (setCall (fun _ => none) 2 askX) 2 askY⟩ := pool_goes (k := andThen outItems fun items => multiProg id ab [(b!"b", [b!"y"])] ([] ++ items)) rfl ga pm'
  have hfirst : (Pool.Sys.start empties).run realHashes id ab inOrder tornJobs (tornMoves.take 4)
      = ⟨worldX, setCall (setCall (setCall (setCall (fun _ => none) 2 askX) 2 askY) 0
          (.call b!"a" (.set { key := b!"x", value := b!"1" }) fx)) 0 (.ret (.ok .done))⟩ :=
    (pool_cons e1).trans <| (pool_cons e2).trans <|
      (pool_cons (pool_begins (y := ⟨empties, setCall (setCall (fun _ => none) 2 askX) 2 askY⟩) (j := 0) rfl rfl px)).trans <|
      (pool_cons (pool_goes (y := ⟨empties, setCall (setCall (setCall (fun _ => none) 2 askX) 2 askY) 0
          (.call b!"a" (.set { key := b!"x", value := b!"1" }) fx)⟩) (j := 0) rfl ab_setX (ox .done trivial))).trans rfl
  refine ⟨?_, ?_, ?_, ?_⟩
  · have hall : (Pool.Sys.start empties).run realHashes id ab inOrder tornJobs tornMoves
        = ⟨worldXY, setCall (setCall (setCall (setCall (setCall (setCall (setCall (fun _ => none) 2 askX) 2 askY) 0
            (.call b!"a" (.set { key := b!"x", value := b!"1" }) fx)) 0 (.ret (.ok .done))) 1
            (.call b!"b" (.set { key := b!"y", value := b!"2" }) fy)) 1 (.ret (.ok .done))) 2 (.ret onlyY)⟩ := by
      have : tornMoves = tornMoves.take 4 ++ [.run 1, .run 1, .run 2] := rfl
      rw [this]
      unfold Pool.Sys.run
      rw [List.foldl_append]
      unfold Pool.Sys.run at hfirst
      rw [hfirst]
      generalize hc : setCall (setCall (setCall (setCall (fun _ => none) 2 askX) 2 askY) 0
          (.call b!"a" (.set { key := b!"x", value := b!"1" }) fx)) 0 (.ret (.ok .done)) = c
      have hc1 : c 1 = none := by rw [← hc]; rfl
      have hc2 : c 2 = some askY := by rw [← hc]; rfl
      have s1 : Pool.Sys.step realHashes id ab inOrder tornJobs ⟨worldX, c⟩ (.run 1)
          = ⟨worldX, setCall c 1 (.call b!"b" (.set { key := b!"y", value := b!"2" }) fy)⟩ := pool_begins hc1 rfl py
      have s2 : Pool.Sys.step realHashes id ab inOrder tornJobs
            ⟨worldX, setCall c 1 (.call b!"b" (.set { key := b!"y", value := b!"2" }) fy)⟩ (.run 1)
          = ⟨worldXY, setCall (setCall c 1 (.call b!"b" (.set { key := b!"y", value := b!"2" }) fy)) 1 (.ret (.ok .done))⟩ :=
        pool_goes rfl ab_setY (oy .done trivial)
      have s3 : Pool.Sys.step realHashes id ab inOrder tornJobs
            ⟨worldXY, setCall (setCall c 1 (.call b!"b" (.set { key := b!"y", value := b!"2" }) fy)) 1 (.ret (.ok .done))⟩ (.run 2)
          = ⟨worldXY, setCall (setCall (setCall c 1 (.call b!"b" (.set { key := b!"y", value := b!"2" }) fy)) 1
              (.ret (.ok .done))) 2 (.ret onlyY)⟩ :=
        pool_goes (k := andThen outItems fun items => multiProg id ab [] ([] ++ items)) hc2 gb rfl
      exact (pool_cons s1).trans <| (pool_cons s2).trans <| (pool_cons s3).trans rfl
    rw [hall]
    intro j
    match j with
    | 0 => exact returned_of rfl
    | 1 => exact returned_of rfl
    | 2 => exact returned_of rfl
    | n + 3 => rfl
  · rw [hfirst]; exact returned_of rfl
  · rw [hfirst]; rfl
  · intro n hn
    have : n = 0 ∨ n = 1 ∨ n = 2 := by omega
    rcases this with rfl | rfl | rfl
    · intro h; exact absurd (List.Perm.length_eq h) (by decide +kernel)
    · intro h
      have := List.Perm.eq_singleton h.symm
      revert this
      decide +kernel
    · intro h; exact absurd (List.Perm.length_eq h) (by decide +kernel)

/-- Five calls: `Flush`, `Set` of "x", `Set` of "y", `Get` of "x", `Get` of "y". -/
def splitJobs : List Step :=
  [.op .flush, .op (.set { key := b!"x", value := b!"1" }), .op (.set { key := b!"y", value := b!"2" }), .op (.get b!"x"),
   .op (.get b!"y")]

/-- The `Flush` (call 0) begins and wipes "a"; the two `Set`s begin and return one after the other; the `Flush` wipes
"b" and returns; then the two `Get`s. -/
def splitMoves : List Move :=
  [.run 0, .run 0, .run 1, .run 1, .run 2, .run 2, .run 0, .run 3, .run 3, .run 4, .run 4]

/-- The item "x" as found on server "a". -/
def foundX : Res Out :=
  .ok (.item { key := b!"x", value := b!"1", flags := some [0, 0, 0, 0], cas := 1, server := b!"a" })

/-- Server "a" with "x", server "b" wiped. -/
def worldX' : World Bytes := World.update worldXY b!"b" ((emptyStore 1000).put b!"y" b!"2" 0 none).flush

/-- The `Flush` before it wipes "b". -/
def wipeB : Prog Bytes := .call b!"b" .flush (andThen outDone fun _ => .ret (.ok .done))
/-- The `Flush` before it wipes "a". -/
def wipeA : Prog Bytes := .call b!"a" .flush (andThen outDone fun _ => wipeB)

/-- C67: a `Flush` over two servers is not carried out at one moment: here the `Set` of "x" has returned before the
`Set` of "y" begins, and when the `Flush` has returned "y" is gone and "x" is there; with one memcached that is so
wherever the `Flush` comes among the `Set`s: never. -/
theorem C67_flush_split :
    (∀ j, ((Pool.Sys.start empties).run realHashes id ab inOrder splitJobs splitMoves).returned j
      = [some (Res.ok Out.done), some (Res.ok Out.done), some (Res.ok Out.done), some foundX, some (Res.err .itemNotFound)][j]?.join)
    ∧ ((Pool.Sys.start empties).run realHashes id ab inOrder splitJobs (splitMoves.take 4)).returned 1 = some (.ok .done)
    ∧ ((Pool.Sys.start empties).run realHashes id ab inOrder splitJobs (splitMoves.take 4)).calls 2 = none
    ∧ ((Pool.Sys.start empties).run realHashes id ab inOrder splitJobs (splitMoves.take 7)).returned 0 = some (.ok .done)
    ∧ ((Pool.Sys.start empties).run realHashes id ab inOrder splitJobs (splitMoves.take 7)).calls 3 = none
    ∧ ∀ n ≤ 2, ∀ t, t = ([Op.set { key := b!"x", value := b!"1" }, .set { key := b!"y", value := b!"2" }].take n ++ .flush ::
          [Op.set { key := b!"x", value := b!"1" }, .set { key := b!"y", value := b!"2" }].drop n).foldl
        (fun t o => (textApi [] t o).2) (emptyStore 1000) →
      ¬ (Alike foundX (textApi [] t (.get b!"x")).1 ∧ Alike (.err .itemNotFound) (textApi [] t (.get b!"y")).1) := by
  obtain ⟨fx, px, ox, -⟩ := ab_key b!"x" b!"a" (.set { key := b!"x", value := b!"1" }) rfl abc_a 1
  obtain ⟨fy, py, oy, -⟩ := ab_key b!"y" b!"b" (.set { key := b!"y", value := b!"2" }) rfl abc_b 2
  obtain ⟨gx, qx, rx, -⟩ := ab_key b!"x" b!"a" (.get b!"x") rfl abc_a 3
  obtain ⟨gy, qy, -, ry, -⟩ := ab_key b!"y" b!"b" (.get b!"y") rfl abc_b 4
  have pf : poolProg realHashes (id : Bytes → Bytes) ab (inOrder.keys 0) (inOrder.servers 0) .flush = wipeA := by
    show flushProg (ab.values id) = _
    have : ab.values id = [b!"a", b!"b"] := by
      show ([b!"a", b!"b"].map fun s => s).reverse.eraseDups.reverse = _ <;> rfl
    rw [this]
    rfl
  have fa : textStep (id : Bytes → Bytes) b!"a" .flush empties = (.ok .done, empties) := by
    rw [textStep_eq id b!"a" .flush empties trivial (emptyStore_good 1000)]
    have hu : World.update empties b!"a" (emptyStore 1000).flush = empties := by
      funext s; unfold World.update; split <;> rfl
    show (_, World.update empties b!"a" (emptyStore 1000).flush) = _
    rw [hu]
    rfl
  have fb : textStep (id : Bytes → Bytes) b!"b" .flush worldXY = (.ok .done, worldX') :=
    textStep_eq id b!"b" .flush worldXY trivial (good_put _ _ (by decide))
  have tx : textStep (id : Bytes → Bytes) b!"a" (.get b!"x") worldX' = (foundX, worldX') := by
    rw [textStep_eq id b!"a" (.get b!"x") worldX' (by decide : Key b!"x") (good_put b!"x" b!"1" (by decide))]
    have e : (textApi b!"a" (worldX' b!"a") (.get b!"x")) = (foundX, worldX' b!"a") := by
      show (textApi b!"a" ((emptyStore 1000).put b!"x" b!"1" 0 none) (.get b!"x")) = (foundX, (emptyStore 1000).put b!"x" b!"1" 0 none)
      rfl
    show ((textApi b!"a" (worldX' b!"a") (.get b!"x")).1, World.update worldX' b!"a" (textApi b!"a" (worldX' b!"a") (.get b!"x")).2) = _
    rw [e]
    refine Prod.ext rfl ?_
    funext s
    unfold World.update
    dsimp only
    split
    · rename_i h; rw [h]
    · rfl
  have ty : textStep (id : Bytes → Bytes) b!"b" (.get b!"y") worldX' = (.err .itemNotFound, worldX') := by
    have hg : GoodStore (worldX' b!"b") :=
      ⟨(good_put b!"y" b!"2" (by decide)).cas, fun k e he => by simp [worldX', World.update, Store.flush] at he⟩
    rw [textStep_eq id b!"b" (.get b!"y") worldX' (by decide : Key b!"y") hg]
    have e : (textApi b!"b" (worldX' b!"b") (.get b!"y")) = (.err .itemNotFound, worldX' b!"b") := rfl
    show ((textApi b!"b" (worldX' b!"b") (.get b!"y")).1, World.update worldX' b!"b" (textApi b!"b" (worldX' b!"b") (.get b!"y")).2) = _
    rw [e]
    refine Prod.ext rfl ?_
    funext s
    unfold World.update
    dsimp only
    split
    · rename_i h; rw [h]
    · rfl
  obtain ⟨c0, hc0⟩ : ∃ c : Nat → Option (Prog Bytes), c = fun _ => none := ⟨_, rfl⟩
  have s1 : Pool.Sys.step realHashes id ab inOrder splitJobs ⟨empties, c0⟩ (.run 0) = ⟨empties, setCall c0 0 wipeA⟩ :=
    pool_begins (by rw [hc0]) rfl pf
  generalize hc1 : setCall c0 0 wipeA = c1 at s1
  have s2 : Pool.Sys.step realHashes id ab inOrder splitJobs ⟨empties, c1⟩ (.run 0) = ⟨empties, setCall c1 0 wipeB⟩ :=
    pool_goes (k := andThen outDone fun _ => wipeB) (by rw [← hc1]; rfl) fa rfl
  generalize hc2 : setCall c1 0 wipeB = c2 at s2
  have s3 : Pool.Sys.step realHashes id ab inOrder splitJobs ⟨empties, c2⟩ (.run 1) = ⟨empties, setCall c2 1 _⟩ :=
    pool_begins (by rw [← hc2, ← hc1, hc0]; rfl) rfl px
  generalize hc3 : setCall c2 1 (.call b!"a" (.set { key := b!"x", value := b!"1" }) fx) = c3 at s3
  have s4 : Pool.Sys.step realHashes id ab inOrder splitJobs ⟨empties, c3⟩ (.run 1) = ⟨worldX, setCall c3 1 _⟩ :=
    pool_goes (k := fx) (by rw [← hc3]; rfl) ab_setX (ox .done trivial)
  generalize hc4 : setCall c3 1 (.ret (.ok .done)) = c4 at s4
  have s5 : Pool.Sys.step realHashes id ab inOrder splitJobs ⟨worldX, c4⟩ (.run 2) = ⟨worldX, setCall c4 2 _⟩ :=
    pool_begins (by rw [← hc4, ← hc3, ← hc2, ← hc1, hc0]; rfl) rfl py
  generalize hc5 : setCall c4 2 (.call b!"b" (.set { key := b!"y", value := b!"2" }) fy) = c5 at s5
  have s6 : Pool.Sys.step realHashes id ab inOrder splitJobs ⟨worldX, c5⟩ (.run 2) = ⟨worldXY, setCall c5 2 _⟩ :=
    pool_goes (k := fy) (by rw [← hc5]; rfl) ab_setY (oy .done trivial)
  generalize hc6 : setCall c5 2 (.ret (.ok .done)) = c6 at s6
  have s7 : Pool.Sys.step realHashes id ab inOrder splitJobs ⟨worldXY, c6⟩ (.run 0) = ⟨worldX', setCall c6 0 (.ret (.ok .done))⟩ :=
    pool_goes (k := andThen outDone fun _ => .ret (.ok .done)) (by rw [← hc6, ← hc5, ← hc4, ← hc3, ← hc2]; rfl) fb rfl
  generalize hc7 : setCall c6 0 (.ret (.ok .done)) = c7 at s7
  have s8 : Pool.Sys.step realHashes id ab inOrder splitJobs ⟨worldX', c7⟩ (.run 3) = ⟨worldX', setCall c7 3 _⟩ :=
    pool_begins (by rw [← hc7, ← hc6, ← hc5, ← hc4, ← hc3, ← hc2, ← hc1, hc0]; rfl) rfl qx
  generalize hc8 : setCall c7 3 (.call b!"a" (.get b!"x") gx) = c8 at s8
  have s9 : Pool.Sys.step realHashes id ab inOrder splitJobs ⟨worldX', c8⟩ (.run 3) = ⟨worldX', setCall c8 3 (.ret foundX)⟩ :=
    pool_goes (k := gx) (by rw [← hc8]; rfl) tx (rx _ trivial)
  generalize hc9 : setCall c8 3 (.ret foundX) = c9 at s9
  have s10 : Pool.Sys.step realHashes id ab inOrder splitJobs ⟨worldX', c9⟩ (.run 4) = ⟨worldX', setCall c9 4 _⟩ :=
    pool_begins (by rw [← hc9, ← hc8, ← hc7, ← hc6, ← hc5, ← hc4, ← hc3, ← hc2, ← hc1, hc0]; rfl) rfl qy
  generalize hc10 : setCall c9 4 (.call b!"b" (.get b!"y") gy) = c10 at s10
  have s11 : Pool.Sys.step realHashes id ab inOrder splitJobs ⟨worldX', c10⟩ (.run 4) = ⟨worldX', setCall c10 4 _⟩ :=
    pool_goes (k := gy) (by rw [← hc10]; rfl) ty (ry _)
  have hstart : Pool.Sys.start empties = ⟨empties, c0⟩ := by rw [hc0]; rfl
  have h4 : (Pool.Sys.start empties).run realHashes id ab inOrder splitJobs (splitMoves.take 4) = ⟨worldX, c4⟩ := by
    rw [hstart]
    exact (pool_cons s1).trans <| (pool_cons s2).trans <| (pool_cons s3).trans <| (pool_cons s4).trans rfl
  have h7 : (Pool.Sys.start empties).run realHashes id ab inOrder splitJobs (splitMoves.take 7) = ⟨worldX', c7⟩ := by
    rw [hstart]
    exact (pool_cons s1).trans <| (pool_cons s2).trans <| (pool_cons s3).trans <| (pool_cons s4).trans <|
      (pool_cons s5).trans <| (pool_cons s6).trans <| (pool_cons s7).trans rfl
  have h11 : (Pool.Sys.start empties).run realHashes id ab inOrder splitJobs splitMoves
      = ⟨worldX', setCall c10 4 (.ret (.err .itemNotFound))⟩ := by
    rw [hstart]
    exact (pool_cons s1).trans <| (pool_cons s2).trans <| (pool_cons s3).trans <| (pool_cons s4).trans <|
      (pool_cons s5).trans <| (pool_cons s6).trans <| (pool_cons s7).trans <| (pool_cons s8).trans <|
      (pool_cons s9).trans <| (pool_cons s10).trans <| (pool_cons s11).trans rfl
  subst hc10 hc9 hc8 hc7 hc6 hc5 hc4 hc3 hc2 hc1 hc0
  refine ⟨?_, ?_, ?_, ?_, ?_, ?_⟩
  · rw [h11]
    intro j
    match j with
    | 0 => exact returned_of rfl
    | 1 => exact returned_of rfl
    | 2 => exact returned_of rfl
    | 3 => exact returned_of rfl
    | 4 => exact returned_of rfl
    | n + 5 => rfl
  · rw [h4]; exact returned_of rfl
  · rw [h4]; rfl
  · rw [h7]; exact returned_of rfl
  · rw [h7]; rfl
  · intro n hn t ht
    have : n = 0 ∨ n = 1 ∨ n = 2 := by omega
    rcases this with rfl | rfl | rfl <;> subst ht
    · rintro ⟨-, h⟩
      have h' : blind _ = blind _ := h
      revert h'
      decide +kernel
    · rintro ⟨h, -⟩
      have h' : blind _ = blind _ := h
      revert h'
      decide +kernel
    · rintro ⟨h, -⟩
      have h' : blind _ = blind _ := h
      revert h'
      decide +kernel

end Props
end Verif
