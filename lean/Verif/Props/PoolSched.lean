import Verif.Pool.Sched
import Verif.Spec.PoolSched
import Verif.Props.Sharding
import Verif.Props.ReplicaSched
/-!
C67: one `SinglePool` used by any number of goroutines, in every schedule.
-/

namespace Verif
namespace Props
open Kv Spec Mc Pool Cluster

variable {S : Type} [DecidableEq S]

/-! ### A method run without interruption is the method -/

theorem textStep_out {α : Type} (name : S → Bytes) (s : S) (o : Op) (out : Out → Option α) (w : World S) :
    callOn (fun s => textCall (name s)) s o out w = (resOut out (textStep name s o w).1, (textStep name s o w).2) := by
  unfold textStep callOn
  generalize exchange (textCall (name s) o) (w s) = x
  cases x with
  | none => rfl
  | some r =>
    obtain ⟨r1, r2⟩ := r
    cases r1 with
    | ok x => dsimp only [resOut]; cases out x <;> rfl
    | err e => rfl
    | panic => rfl

theorem pool_alone_andThen {α : Type} (name : S → Bytes) (out : Out → Option α) (f : α → Prog S) (g : α → Act (World S) Out)
    (s : S) (o : Op) (w : World S) (hfg : ∀ a w, Pool.Prog.alone name (f a) w = g a w) :
    Pool.Prog.alone name (Prog.call s o (andThen out f)) w
      = (callOn (fun s => textCall (name s)) s o out >>= g) w := by
  rw [Act.bind_apply, textStep_out]
  show Pool.Prog.alone name (andThen out f (textStep name s o w).1) _ = _
  generalize textStep name s o w = c
  obtain ⟨c1, c2⟩ := c
  cases c1 with
  | ok x =>
    dsimp only [resOut, andThen]
    cases out x with
    | some a => exact hfg a c2
    | none => rfl
  | err e => rfl
  | panic => rfl

theorem pool_alone_one {α : Type} (name : S → Bytes) (H : Hashes) (r : Ring S) (k : Bytes) (o : Op) (out : Out → Option α)
    (f : α → Out) (op : ServerOps (World S) → Act (World S) α)
    (hop : ∀ s, op ((textEnv H name).ops s) = callOn (fun s => textCall (name s)) s o out) (w : World S) :
    Pool.Prog.alone name (onPick (r.pick H k) fun s => .call s o (andThen out fun a => .ret (.ok (f a)))) w
      = actOut f (onPicked (textEnv H name) r k op) w := by
  unfold actOut onPicked
  have hH : (textEnv H name).H = H := rfl
  rw [hH]
  cases r.pick H k with
  | err e => rfl
  | panic => rfl
  | ok s =>
    show Pool.Prog.alone name (.call s o _) w = (Res.map f (op ((textEnv H name).ops s) w).1, (op ((textEnv H name).ops s) w).2)
    rw [hop, pool_alone_andThen name out _ (fun a => Act.lift (.ok (f a))) s o w (fun _ _ => rfl), Act.bind_apply]
    generalize callOn (fun s => textCall (name s)) s o out w = c
    obtain ⟨c1, c2⟩ := c
    cases c1 <;> rfl

theorem pool_alone_multi (H : Hashes) (name : S → Bytes) (r : Ring S) (es : List (Bytes × List Bytes)) :
    ∀ (acc : List Item) (w : World S), Pool.Prog.alone name (multiProg name r es acc) w
      = actOut .items (getMultiLoop (textEnv H name) r es acc) w := by
  induction es with
  | nil => intro acc w; rfl
  | cons e es ih =>
    intro acc w
    obtain ⟨n, ks⟩ := e
    unfold multiProg getMultiLoop
    show Pool.Prog.alone name (match r.find name n with | none => _ | some s => _) w = _
    have hn : (textEnv H name).name = name := rfl
    rw [hn]
    cases r.find name n with
    | none => rfl
    | some s =>
      rw [actOut_bind]
      exact pool_alone_andThen name outItems _ (fun items => actOut .items (getMultiLoop (textEnv H name) r es (acc ++ items)))
        s (.getMulti ks) w (fun items w => ih (acc ++ items) w)

theorem pool_alone_flush (H : Hashes) (name : S → Bytes) (ss : List S) :
    ∀ w : World S, Pool.Prog.alone name (flushProg ss) w
      = actOut (fun _ => .done) (each (fun s => ((textEnv H name).ops s).flush) ss) w := by
  induction ss with
  | nil => intro w; rfl
  | cons s ss ih =>
    intro w
    unfold flushProg each
    rw [actOut_bind]
    exact pool_alone_andThen name outDone _ (fun _ => actOut (fun _ => .done) (each (fun s => ((textEnv H name).ops s).flush) ss))
      s .flush w (fun _ w => ih w)

/-- C67: a method that is not interrupted does what the method does when called alone (C06-C09, C62). -/
theorem C67_sequential (H : Hashes) (name : S → Bytes) (r : Ring S)
    (order : List (Bytes × List Bytes) → List (Bytes × List Bytes)) (orderS : List S → List S) (o : Op) (w : World S) :
    Pool.Prog.alone name (poolProg H name r order orderS o) w = poolCall H name r order orderS w o := by
  cases o with
  | get k => exact pool_alone_one name H r k (.get k) outItem Out.item (·.get k) (fun _ => rfl) w
  | set i => exact pool_alone_one name H r i.key (.set i) outDone (fun _ => .done) (·.set i) (fun _ => rfl) w
  | add i => exact pool_alone_one name H r i.key (.add i) outDone (fun _ => .done) (·.add i) (fun _ => rfl) w
  | replace i => exact pool_alone_one name H r i.key (.replace i) outDone (fun _ => .done) (·.replace i) (fun _ => rfl) w
  | delete k => exact pool_alone_one name H r k (.delete k) outDone (fun _ => .done) (·.delete k) (fun _ => rfl) w
  | increment k d e => exact pool_alone_one name H r k (.increment k d e) outNum Out.num (·.increment k d e) (fun _ => rfl) w
  | decrement k d e => exact pool_alone_one name H r k (.decrement k d e) outNum Out.num (·.decrement k d e) (fun _ => rfl) w
  | touch k e => exact pool_alone_one name H r k (.touch k e) outDone (fun _ => .done) (·.touch k e) (fun _ => rfl) w
  | flush => exact pool_alone_flush H name _ w
  | getMulti ks =>
    show Pool.Prog.alone name (multiOn name r order (keyMap (textEnv H name) r ks [])) w
      = actOut .items (Act.lift (keyMap (textEnv H name) r ks []) >>= fun m => getMultiLoop (textEnv H name) r (order m) []) w
    cases keyMap (textEnv H name) r ks [] with
    | ok m => exact pool_alone_multi H name r (order m) [] w
    | err e => rfl
    | panic => rfl

/-! ### The simulation -/

theorem textStep_eq (name : S → Bytes) (s : S) (o : Op) (w : World S) (ho : GoodOp o) (hs : GoodStore (w s)) :
    textStep name s o w = ((textApi (name s) (w s) o).1, World.update w s (textApi (name s) (w s) o).2) := by
  have hx := C52_text_call (name s) o ho (w s) hs
  unfold textStep callOn
  rw [hx]
  generalize textApi (name s) (w s) o = c
  obtain ⟨c1, c2⟩ := c
  cases c1 <;> rfl

omit [DecidableEq S] in
theorem posCas_flush {s : Store} (h : PosCas s) : PosCas s.flush :=
  ⟨h.1, fun k e he => by simp [Store.flush] at he⟩

theorem Inv.forget {servers : List S} {p : Bytes → S} {w : World S} {t : Store} {as bs : List (Res Out)}
    (h : Inv servers p w t as bs) (s : S) :
    Inv servers p (World.update w s (w s).flush) (Spec.forget p s t) as bs := by
  have hU : ∀ x, World.update w s (w s).flush x = if x = s then (w s).flush else w x := fun _ => rfl
  have hF : ∀ k, (Spec.forget p s t).data k = if p k = s then none else t.data k := fun _ => rfl
  refine ⟨h.mem, ?_, ?_, ?_, ?_, ?_, h.alike, ?_⟩
  · intro x hx
    rw [hU]
    split
    · rename_i hxs
      subst hxs
      exact ⟨(h.good x hx).cas, fun k e he => by simp [Store.flush] at he⟩
    · exact h.good x hx
  · refine ⟨h.goodT.cas, fun k e he => ?_⟩
    rw [hF] at he
    split at he
    · cases he
    · exact h.goodT.entry k e he
  · intro x hx
    rw [hU]
    split
    · rename_i hxs
      subst hxs
      exact posCas_flush (h.pos x hx)
    · exact h.pos x hx
  · refine ⟨h.posT.1, fun k e he => ?_⟩
    rw [hF] at he
    split at he
    · cases he
    · exact h.posT.2 k e he
  · intro k
    have ha := h.agree k
    rw [hU]
    split
    · rename_i hk
      refine ⟨by rw [← hk]; exact ha.now, ?_⟩
      rw [hF, if_pos hk]
      trivial
    · rename_i hk
      refine ⟨ha.now, ?_⟩
      rw [hF, if_neg hk]
      exact ha.entry
  · intro n i j hi hj
    obtain ⟨h1, t1, t2, t3, t4, t5⟩ := h.tok n i j hi hj
    refine ⟨h1, t1, ?_, t3, t4, ?_⟩
    · rw [hU]
      split
      · rename_i hk; rw [← hk]; exact t2
      · exact t2
    · intro e e' he he'
      rw [hF] at he'
      split at he'
      · cases he'
      · rename_i hk
        rw [hU, if_neg hk] at he
        exact t5 e e' he he'

/-- What a call of the pool still has to do, and what is left to do for it at the one memcached. -/
inductive CallRel (servers : List S) (p : Bytes → S) (name : S → Bytes) (r : Ring S) (as bs : List (Res Out)) :
    Prog S → Doing S → Prop where
  | one (st : Step) (k : Bytes) (fin : Res Out → Prog S) (hg : GoodStep st) (hw : ¬ st.Wide)
      (hsa : ∀ l, st.call (as ++ l) = st.call as) (hsb : ∀ l, st.call (bs ++ l) = st.call bs)
      (hk : (st.call as).key? = some k) (hok : ∀ x, KindOf (st.call as) x → fin (.ok x) = .ret (.ok x))
      (herr : ∀ e, fin (.err e) = .ret (.err e)) (hpanic : fin .panic = .ret .panic) :
      CallRel servers p name r as bs (.call (p k) (st.call as) fin) (.one (st.call bs))
  | multi (es : List (Bytes × List Bytes)) (calls : List (S × List Bytes)) (accA accB : List Item)
      (he : es.map (fun e => (r.find name e.1, e.2)) = calls.map (fun c => (some c.1, c.2)))
      (hc : ∀ c ∈ calls, c.2 ≠ [] ∧ ∀ k ∈ c.2, p k = c.1 ∧ Key k) (ha : accA.map blindItem = accB.map blindItem) :
      CallRel servers p name r as bs (multiProg name r es accA) (.multi (calls.map Prod.snd) accB)
  | wipe (ss : List S) (h : ∀ s ∈ ss, s ∈ servers) : CallRel servers p name r as bs (flushProg ss) (.wipe ss)
  | done (n : Nat) (a b : Res Out) (ha : as[n]? = some a) (hb : bs[n]? = some b) :
      CallRel servers p name r as bs (.ret a) (.done b)

theorem CallRel.mono {servers : List S} {p : Bytes → S} {name : S → Bytes} {r : Ring S} {as bs : List (Res Out)}
    {pr : Prog S} {x : Doing S} (h : CallRel servers p name r as bs pr x) (la lb : List (Res Out)) :
    CallRel servers p name r (as ++ la) (bs ++ lb) pr x := by
  cases h with
  | one st k fin hg hw hsa hsb hk hok herr hpanic =>
    have := CallRel.one (servers := servers) (p := p) (name := name) (r := r) (as := as ++ la) (bs := bs ++ lb) st k fin hg hw
      (fun l => by rw [List.append_assoc, hsa, hsa]) (fun l => by rw [List.append_assoc, hsb, hsb])
      (by rw [hsa]; exact hk) (by rw [hsa]; exact hok) herr hpanic
    rw [hsa, hsb] at this
    exact this
  | multi es calls accA accB he hc ha => exact .multi es calls accA accB he hc ha
  | wipe ss h => exact .wipe ss h
  | done n a b ha hb =>
    refine .done n a b ?_ ?_
    · rw [List.getElem?_append_left (List.getElem?_eq_some_iff.1 ha).1]; exact ha
    · rw [List.getElem?_append_left (List.getElem?_eq_some_iff.1 hb).1]; exact hb

/-- The result of a program, if it has returned. -/
def progResult : Prog S → Option (Res Out)
  | .ret r => some r
  | _ => none

omit [DecidableEq S] in
theorem returned_eq (y : Pool.Sys S) (j : Nat) : y.returned j = (y.calls j).bind progResult := by
  unfold Pool.Sys.returned
  cases y.calls j with
  | none => rfl
  | some pr => cases pr <;> rfl

/-- Related calls: not returned; returned with logged results; returned with no item. -/
theorem CallRel.results {servers : List S} {p : Bytes → S} {name : S → Bytes} {r : Ring S} {as bs : List (Res Out)}
    {pr : Prog S} {x : Doing S} (h : CallRel servers p name r as bs pr x) :
    (progResult pr = none ∧ x.result = none)
    ∨ (∃ (n : Nat) (a b : Res Out), progResult pr = some a ∧ x.result = some b ∧ as[n]? = some a ∧ bs[n]? = some b)
    ∨ (∃ a b, progResult pr = some a ∧ x.result = some b ∧ Alike a b ∧ (∀ i, a ≠ .ok (.item i)) ∧ ∀ i, b ≠ .ok (.item i)) := by
  cases h with
  | one st k fin => exact Or.inl ⟨rfl, rfl⟩
  | multi es calls accA accB he hc ha =>
    cases es with
    | nil =>
      cases calls with
      | nil =>
        refine Or.inr (Or.inr ⟨_, _, rfl, rfl, ?_, fun i h => (by cases h), fun i h => (by cases h)⟩)
        exact List.Perm.of_eq ha
      | cons c cs => simp at he
    | cons e es =>
      cases calls with
      | nil => simp at he
      | cons c cs =>
        simp only [List.map_cons, List.cons.injEq, Prod.mk.injEq] at he
        refine Or.inl ⟨?_, rfl⟩
        unfold multiProg
        rw [he.1.1]
        rfl
  | wipe ss h =>
    cases ss with
    | nil => exact Or.inr (Or.inr ⟨_, _, rfl, rfl, rfl, fun i h => (by cases h), fun i h => (by cases h)⟩)
    | cons s ss => exact Or.inl ⟨rfl, rfl⟩
  | done n a b ha hb => exact Or.inr (Or.inl ⟨n, a, b, rfl, rfl, ha, hb⟩)

/-- The whole system against the one memcached. -/
structure PoolSim (servers : List S) (p : Bytes → S) (name : S → Bytes) (r : Ring S) (y : Pool.Sys S) (z : Solo S)
    (as bs : List (Res Out)) : Prop where
  inv : Inv servers p y.world z.store as bs
  calls : ∀ j, (y.calls j = none ∧ z.calls j = none)
    ∨ ∃ pr x, y.calls j = some pr ∧ z.calls j = some x ∧ CallRel servers p name r as bs pr x

theorem tokenOf_none {l : List (Res Out)} {ref : Nat} {key : Bytes} (h : ∀ i, l[ref]? ≠ some (.ok (.item i))) :
    tokenOf l ref key = 0 := by
  unfold tokenOf
  split
  · rename_i i hi; exact absurd hi (h i)
  · rfl

theorem tokenOf_same {l l' : List (Res Out)} {n n' : Nat} {key : Bytes} (h : l[n]? = l'[n']?) :
    tokenOf l n key = tokenOf l' n' key := by
  unfold tokenOf; rw [h]

omit [DecidableEq S] in
theorem pool_results_get (y : Pool.Sys S) (n ref : Nat) :
    (y.results n)[ref]? = if ref < n then some ((y.returned ref).getD .panic) else none := by
  unfold Pool.Sys.results
  rw [List.getElem?_map]
  by_cases h : ref < n
  · rw [List.getElem?_range h, if_pos h]; rfl
  · rw [List.getElem?_eq_none (by simpa using h), if_neg h]; rfl

omit [DecidableEq S] in
theorem one_results_get (z : Solo S) (n ref : Nat) :
    (z.results n)[ref]? = if ref < n then some ((z.returned ref).getD .panic) else none := by
  unfold Solo.results
  rw [List.getElem?_map]
  by_cases h : ref < n
  · rw [List.getElem?_range h, if_pos h]; rfl
  · rw [List.getElem?_eq_none (by simpa using h), if_neg h]; rfl

/-- A call on one key, with the tokens it uses traced to the log. -/
theorem PoolSim.traced {servers : List S} {p : Bytes → S} {name : S → Bytes} {r : Ring S} {y : Pool.Sys S} {z : Solo S}
    {as bs : List (Res Out)} (h : PoolSim servers p name r y z as bs) (n : Nat) (st : Step) (hg : GoodStep st) (hw : ¬ st.Wide) :
    ∃ st' : Step, GoodStep st' ∧ ¬ st'.Wide ∧ (∀ l, st'.call (as ++ l) = st'.call as) ∧ (∀ l, st'.call (bs ++ l) = st'.call bs)
      ∧ st.call (y.results n) = st'.call as ∧ st.call (z.results n) = st'.call bs := by
  cases st with
  | op o => exact ⟨.op o, hg, hw, fun _ => rfl, fun _ => rfl, rfl, rfl⟩
  | setCas i ref =>
    have plain : (∀ x, (y.results n)[ref]? ≠ some (.ok (.item x))) → (∀ x, (z.results n)[ref]? ≠ some (.ok (.item x))) →
        ∃ st' : Step, GoodStep st' ∧ ¬ st'.Wide ∧ (∀ l, st'.call (as ++ l) = st'.call as)
          ∧ (∀ l, st'.call (bs ++ l) = st'.call bs)
          ∧ (Step.setCas i ref).call (y.results n) = st'.call as ∧ (Step.setCas i ref).call (z.results n) = st'.call bs := by
      intro h1 h2
      refine ⟨.op (.set i), hg, by simp [Step.Wide, Op.key?], fun _ => rfl, fun _ => rfl, ?_, ?_⟩
      · simp only [Step.call, Op.noCas, tokenOf_none h1]
      · simp only [Step.call, Op.noCas, tokenOf_none h2]
    rw [pool_results_get, one_results_get] at plain
    by_cases hn : ref < n
    · rw [if_pos hn, if_pos hn, returned_eq] at plain
      unfold Solo.returned at plain
      rcases h.calls ref with ⟨e1, e2⟩ | ⟨pr, x, e1, e2, hrel⟩
      · rw [e1, e2] at plain
        exact plain (fun x hx => by cases hx) (fun x hx => by cases hx)
      · rw [e1, e2] at plain
        rcases hrel.results with ⟨r1, r2⟩ | ⟨m, a, b, r1, r2, r3, r4⟩ | ⟨a, b, r1, r2, -, r3, r4⟩
        · refine plain ?_ ?_
          · intro x hx; rw [show (some pr).bind progResult = progResult pr from rfl, r1] at hx; cases hx
          · intro y hx; rw [show (some x).bind Doing.result = x.result from rfl, r2] at hx; cases hx
        · have h1 : (y.results n)[ref]? = as[m]? := by
            rw [pool_results_get, if_pos hn, returned_eq, e1, r3]
            show some ((progResult pr).getD .panic) = _
            rw [r1]; rfl
          have h2 : (z.results n)[ref]? = bs[m]? := by
            rw [one_results_get, if_pos hn]
            unfold Solo.returned
            rw [e2, r4]
            show some (x.result.getD .panic) = _
            rw [r2]; rfl
          refine ⟨.setCas i m, hg, hw, ?_, ?_, ?_, ?_⟩
          · intro l
            simp only [Step.call]
            rw [tokenOf_same (l := as ++ l) (l' := as) (n := m) (n' := m)
              (List.getElem?_append_left (List.getElem?_eq_some_iff.1 r3).1)]
          · intro l
            simp only [Step.call]
            rw [tokenOf_same (l := bs ++ l) (l' := bs) (n := m) (n' := m)
              (List.getElem?_append_left (List.getElem?_eq_some_iff.1 r4).1)]
          · simp only [Step.call]; rw [tokenOf_same h1]
          · simp only [Step.call]; rw [tokenOf_same h2]
        · refine plain ?_ ?_
          · intro i hx; rw [show (some pr).bind progResult = progResult pr from rfl, r1] at hx
            simp only [Option.getD_some, Option.some.injEq] at hx
            exact r3 i hx
          · intro i hx; rw [show (some x).bind Doing.result = x.result from rfl, r2] at hx
            simp only [Option.getD_some, Option.some.injEq] at hx
            exact r4 i hx
    · rw [if_neg hn, if_neg hn] at plain
      exact plain (fun x hx => by cases hx) (fun x hx => by cases hx)

/-- A method on one key is one call on the key's server, whose result it returns. -/
theorem poolProg_one (H : Hashes) (name : S → Bytes) (r : Ring S)
    (order : List (Bytes × List Bytes) → List (Bytes × List Bytes)) (orderS : List S → List S)
    (o : Op) (k : Bytes) (s : S) (hk : o.key? = some k) (hp : r.pick H k = .ok s) :
    ∃ fin, poolProg H name r order orderS o = .call s o fin ∧ (∀ x, KindOf o x → fin (.ok x) = .ret (.ok x))
      ∧ (∀ e, fin (.err e) = .ret (.err e)) ∧ fin .panic = .ret .panic := by
  have key : ∀ {α : Type} (out : Out → Option α) (f : α → Out), (∀ x, KindOf o x → ∃ a, out x = some a ∧ f a = x) →
      poolProg H name r order orderS o = onPick (r.pick H k) (fun s => .call s o (andThen out fun a => .ret (.ok (f a)))) →
      ∃ fin, poolProg H name r order orderS o = .call s o fin ∧ (∀ x, KindOf o x → fin (.ok x) = .ret (.ok x))
        ∧ (∀ e, fin (.err e) = .ret (.err e)) ∧ fin .panic = .ret .panic := by
    intro α out f hf h
    rw [hp] at h
    refine ⟨_, h, ?_, fun _ => rfl, rfl⟩
    intro x hx
    obtain ⟨a, h1, h2⟩ := hf x hx
    show (match out x with | some a => Prog.ret (.ok (f a)) | none => .ret .panic) = _
    rw [h1]
    show Prog.ret (.ok (f a)) = _
    rw [h2]
  have hdone : (∀ x, KindOf o x → x = .done) → ∀ x, KindOf o x → ∃ a, outDone x = some a ∧ (fun _ : Unit => Out.done) a = x := by
    intro h x hx
    rw [h x hx]
    exact ⟨(), rfl, rfl⟩
  cases o with
  | getMulti ks => simp [Op.key?] at hk
  | flush => simp [Op.key?] at hk
  | get k' =>
    simp only [Op.key?, Option.some.injEq] at hk; subst hk
    exact key outItem Out.item
      (fun x hx => by cases x <;> first | exact ⟨_, rfl, rfl⟩ | exact absurd hx (by simp [KindOf])) rfl
  | increment k' d e =>
    simp only [Op.key?, Option.some.injEq] at hk; subst hk
    exact key outNum Out.num
      (fun x hx => by cases x <;> first | exact ⟨_, rfl, rfl⟩ | exact absurd hx (by simp [KindOf])) rfl
  | decrement k' d e =>
    simp only [Op.key?, Option.some.injEq] at hk; subst hk
    exact key outNum Out.num
      (fun x hx => by cases x <;> first | exact ⟨_, rfl, rfl⟩ | exact absurd hx (by simp [KindOf])) rfl
  | _ =>
    simp only [Op.key?, Option.some.injEq] at hk; subst hk
    exact key outDone (fun _ => .done)
      (hdone (fun x hx => by cases x <;> first | rfl | exact absurd hx (by simp [KindOf]))) rfl

section Simulation
variable {H : Hashes} {name : S → Bytes} {servers : List S} {r : Ring S} {p : Bytes → S}

theorem blind_items {s t : Store} {name1 name2 : Bytes} {ks : List Bytes} (h : ∀ k ∈ ks, Agree k s t) :
    (ks.filterMap fun k => (s.find k).map fun e => textItem name1 k e 0).map blindItem
      = (ks.filterMap fun k => (t.find k).map fun e => textItem name2 k e 0).map blindItem := by
  rw [List.map_filterMap, List.map_filterMap]
  apply filterMap_congr'
  intro k hk
  rcases find_pair (h k hk).now (h k hk).entry with ⟨e1, e2⟩ | ⟨e, e', _, _, e1, e2, hv, hf, hx⟩ <;> rw [e1, e2]
  · rfl
  · simp [blindItem, textItem, hv, hf]

theorem PoolSim.put {name : S → Bytes} {y : Pool.Sys S} {z : Solo S} {as bs la lb : List (Res Out)} (h : PoolSim servers p name r y z as bs)
    {w : World S} {t : Store} (hinv : Inv servers p w t (as ++ la) (bs ++ lb)) {j : Nat} {pr : Prog S} {x : Doing S}
    (hrel : CallRel servers p name r (as ++ la) (bs ++ lb) pr x) :
    PoolSim servers p name r ⟨w, fun i => if i = j then some pr else y.calls i⟩ ⟨t, fun i => if i = j then some x else z.calls i⟩
      (as ++ la) (bs ++ lb) := by
  refine ⟨hinv, fun i => ?_⟩
  by_cases hi : i = j
  · right
    exact ⟨pr, x, if_pos hi, if_pos hi, hrel⟩
  · dsimp only
    rw [if_neg hi, if_neg hi]
    rcases h.calls i with h1 | ⟨pr', x', h1, h2, h3⟩
    · exact Or.inl h1
    · exact Or.inr ⟨pr', x', h1, h2, h3.mono la lb⟩

/-- One move. -/
theorem PoolSim.move (hr : IsRing H name servers r) (hne : servers ≠ []) (hd : DistinctNames name servers)
    (hp : ∀ k, r.pick H k = .ok (p k)) (or : Orders S) (hok : ∀ j, IterOrder (or.keys j)) (hos : ∀ j, IterOrder (or.servers j))
    (name0 : Bytes) (jobs : List Step) (hjobs : ∀ st ∈ jobs, GoodStep st)
    {y : Pool.Sys S} {z : Solo S} {as bs : List (Res Out)} (h : PoolSim servers p name r y z as bs)
    (hcas : ∀ s ∈ servers, (y.world s).nextCas + 1 < 2 ^ 63) (hcasT : z.store.nextCas + 1 < 2 ^ 63) (m : Move) :
    ∃ z' as' bs', SoloStep p name0 jobs z m z' ∧ PoolSim servers p name r (y.step H name r or jobs m) z' as' bs'
      ∧ (∀ s ∈ servers, ((y.step H name r or jobs m).world s).nextCas ≤ (y.world s).nextCas + 1)
      ∧ z'.store.nextCas ≤ z.store.nextCas + 1 := by
  cases m with
  | tick d =>
    refine ⟨_, as, bs, .tick, ⟨h.inv.tick d, h.calls⟩, fun s _ => ?_, ?_⟩
    · show (y.world s).nextCas ≤ _; omega
    · show z.store.nextCas ≤ _; omega
  | run j =>
    rcases h.calls j with ⟨hy, hz⟩ | ⟨pr, x, hy, hz, hrel⟩
    · -- the call begins
      cases hj : jobs[j]? with
      | none =>
        have hs : y.step H name r or jobs (.run j) = y := by
          simp only [Pool.Sys.step, hy, hj]
        rw [hs]
        exact ⟨z, as, bs, .none (Or.inl hj), h, fun s _ => by omega, by omega⟩
      | some st =>
        have hg : GoodStep st := hjobs st (List.mem_of_getElem? hj)
        have hs : y.step H name r or jobs (.run j)
            = ⟨y.world, fun x => if x = j then some (poolProg H name r (or.keys j) (or.servers j)
                (st.call (y.results jobs.length))) else y.calls x⟩ := by
          simp only [Pool.Sys.step, hy, hj]
        rw [hs]
        have fin : ∀ x, Begins p (st.call (z.results jobs.length)) x →
            CallRel servers p name r as bs (poolProg H name r (or.keys j) (or.servers j) (st.call (y.results jobs.length))) x →
            ∃ z' as' bs', SoloStep p name0 jobs z (.run j) z' ∧ PoolSim servers p name r
              ⟨y.world, fun x => if x = j then some (poolProg H name r (or.keys j) (or.servers j)
                (st.call (y.results jobs.length))) else y.calls x⟩ z' as' bs'
              ∧ (∀ s ∈ servers, (y.world s).nextCas ≤ (y.world s).nextCas + 1) ∧ z'.store.nextCas ≤ z.store.nextCas + 1 := by
          intro x hb hc
          refine ⟨_, as ++ [], bs ++ [], .begin hz hj hb, h.put (la := []) (lb := []) ?_ ?_, fun s _ => by omega, ?_⟩
          · rw [List.append_nil, List.append_nil]; exact h.inv
          · rw [List.append_nil, List.append_nil]; exact hc
          · show z.store.nextCas ≤ _; omega
        by_cases hw : st.Wide
        · cases st with
          | setCas i ref => exact hw.elim
          | op o =>
            cases o with
            | getMulti ks =>
              have hks : ks ≠ [] ∧ ∀ k ∈ ks, Key k := hg
              obtain ⟨m, calls, hm, hc, hn, hmem⟩ :=
                routing_calls (textEnv H name) (servers := servers) (r := r) hr hne hd (or.keys j) (hok j) ks
              have hmem' : ∀ c ∈ calls, c.2 = ks.filter (fun k => p k = c.1) ∧ c.2 ≠ [] := by
                intro c hc'
                obtain ⟨h1, h2⟩ := (hmem c.1 c.2).1 hc'
                refine ⟨?_, h2⟩
                rw [h1]
                apply List.filter_congr
                intro k _
                rw [Bool.eq_iff_iff, decide_eq_true_eq, decide_eq_true_eq]
                show r.pick H k = .ok c.1 ↔ _
                rw [hp]
                constructor
                · intro h; injection h
                · intro h; rw [h]
              refine fin (.multi (calls.map Prod.snd) []) ?_ ?_
              · have hgroups : calls.map Prod.snd = (calls.map Prod.fst).map (fun s => ks.filter fun k => p k = s) := by
                  rw [List.map_map]
                  apply List.map_congr_left
                  intro c hc'
                  exact (hmem' c hc').1
                rw [hgroups]
                refine .multi hn ?_
                intro s
                constructor
                · intro hs'
                  obtain ⟨c, hc', rfl⟩ := List.mem_map.1 hs'
                  obtain ⟨h1, h2⟩ := hmem' c hc'
                  obtain ⟨k, hk⟩ := List.exists_mem_of_ne_nil _ h2
                  rw [h1, List.mem_filter, decide_eq_true_eq] at hk
                  exact ⟨k, hk.1, hk.2⟩
                · rintro ⟨k, hk, rfl⟩
                  refine List.mem_map.2 ⟨(p k, ks.filter fun x => decide (r.pick (textEnv H name).H x = .ok (p k))), ?_, rfl⟩
                  refine (hmem _ _).2 ⟨rfl, ?_⟩
                  apply List.ne_nil_of_mem (a := k)
                  rw [List.mem_filter, decide_eq_true_eq]
                  exact ⟨hk, hp k⟩
              · show CallRel servers p name r as bs (multiOn name r (or.keys j) (keyMap (textEnv H name) r ks [])) _
                rw [hm]
                refine .multi (or.keys j m) calls [] [] hc ?_ rfl
                intro c hc'
                obtain ⟨h1, h2⟩ := hmem' c hc'
                refine ⟨h2, fun k hk => ?_⟩
                rw [h1, List.mem_filter, decide_eq_true_eq] at hk
                exact ⟨hk.2, hks.2 k hk.1⟩
            | flush =>
              obtain ⟨hnd, hl⟩ := order_values (E := textEnv H name) (servers := servers) (r := r) hr (hos j)
              have hmem : ∀ s, s ∈ or.servers j (r.values name) ↔ s ∈ servers := by
                intro s
                rw [show (s ∈ or.servers j (r.values name)) = (s ∈ or.servers j (r.values (textEnv H name).name)) from rfl, hl s]
                exact registered_mem hd s
              refine fin (.wipe (or.servers j (r.values name))) (.wipe hnd ?_) ?_
              · intro k; exact (hmem _).2 (h.inv.mem k)
              · exact .wipe _ fun s hs' => (hmem s).1 hs'
            | _ => exact absurd hw (by simp [Step.Wide, Op.key?])
        · obtain ⟨st', g1, g2, g3, g4, g5, g6⟩ := h.traced jobs.length st hg hw
          obtain ⟨k, hkA, hkB, -⟩ := h.inv.calls name name0 st' g1 g2
          rw [g5, g6] at fin
          obtain ⟨f, e1, e2, e3, e4⟩ := poolProg_one H name r (or.keys j) (or.servers j) (st'.call as) k (p k) hkA (hp k)
          rw [g5]
          refine fin (.one (st'.call bs)) (.one hkB) ?_
          rw [e1]
          exact .one st' k f g1 g2 g3 g4 hkA e2 e3 e4
    · -- the call goes on
      cases hrel with
      | done n a b ha hb =>
        have hs : y.step H name r or jobs (.run j) = y := by simp only [Pool.Sys.step, hy]
        rw [hs]
        exact ⟨z, as, bs, .none (Or.inr ⟨_, b, hz, rfl⟩), h, fun s _ => by omega, by omega⟩
      | one st k f hg hw hsa hsb hk hfok hferr hfp =>
        obtain ⟨k', hkA, hkB, gA, gB, hbl, hm⟩ := h.inv.calls name name0 st hg hw
        rw [hk] at hkA
        cases hkA
        have hgs := h.inv.good _ (h.inv.mem k)
        have nA := textApi_next (name (p k)) (st.call as) _ gA hgs (hcas _ (h.inv.mem k))
        have nB := textApi_next name0 (st.call bs) _ gB h.inv.goodT hcasT
        have hstep := h.inv.step (name := name) (name0 := name0) (st.call as) (st.call bs) k hk hkB nA.1 nB.1 hbl hm
        have hts := textStep_eq name (p k) (st.call as) y.world gA hgs
        have hkind := textApi_kind (name (p k)) (y.world (p k)) (st.call as)
        have hf : f (textStep name (p k) (st.call as) y.world).1 = .ret (shardApi p name y.world (st.call as) k).1 := by
          rw [hts]
          show f (textApi (name (p k)) (y.world (p k)) (st.call as)).1 = .ret (textApi (name (p k)) (y.world (p k)) (st.call as)).1
          cases hres : (textApi (name (p k)) (y.world (p k)) (st.call as)).1 with
          | ok x => exact hfok x (hkind x hres)
          | err e => exact hferr e
          | panic => exact hfp
        have hs : y.step H name r or jobs (.run j)
            = ⟨(shardApi p name y.world (st.call as) k).2,
                fun x => if x = j then some (.ret (shardApi p name y.world (st.call as) k).1) else y.calls x⟩ := by
          simp only [Pool.Sys.step, hy, hf]
          rw [hts]
          rfl
        rw [hs]
        have hlen := h.inv.alike.1
        refine ⟨_, as ++ [(shardApi p name y.world (st.call as) k).1], bs ++ [(textApi name0 z.store (st.call bs)).1],
          .act hz .one, h.put hstep ?_, ?_, nB.2⟩
        · refine .done as.length _ _ ?_ ?_
          · rw [List.getElem?_append_right (Nat.le_refl _), Nat.sub_self]; rfl
          · rw [List.getElem?_append_right (by omega), hlen, Nat.sub_self]; rfl
        · intro s _
          show (if s = p k then _ else _ : Store).nextCas ≤ _
          split
          · rename_i hsk; subst hsk; exact nA.2
          · omega
      | multi es calls accA accB he hc ha =>
        cases es with
        | nil =>
          cases calls with
          | nil =>
            have hs : y.step H name r or jobs (.run j) = y := by simp only [Pool.Sys.step, hy, multiProg]
            rw [hs]
            exact ⟨z, as, bs, .none (Or.inr ⟨_, _, hz, rfl⟩), h, fun s _ => by omega, by omega⟩
          | cons c cs => simp at he
        | cons e es =>
          cases calls with
          | nil => simp at he
          | cons c cs =>
            obtain ⟨n, ks⟩ := e
            obtain ⟨s, ks'⟩ := c
            simp only [List.map_cons, List.cons.injEq, Prod.mk.injEq] at he
            obtain ⟨⟨hfind, rfl⟩, he⟩ := he
            obtain ⟨hks, hkk⟩ := hc (s, ks) (by simp)
            have hsm : s ∈ servers := by
              obtain ⟨k, hk⟩ := List.exists_mem_of_ne_nil _ hks
              have hpk : p k = s := (hkk k hk).1
              rw [← hpk]; exact h.inv.mem k
            have hts := textStep_eq name s (.getMulti ks) y.world ⟨hks, fun k hk => (hkk k hk).2⟩ (h.inv.good s hsm)
            have hupd : World.update y.world s (y.world s) = y.world := by
              funext x
              unfold World.update
              split
              · rename_i hx; rw [hx]
              · rfl
            have hts' : textStep name s (.getMulti ks) y.world
                = (.ok (.items (ks.filterMap fun k => ((y.world s).find k).map fun e => textItem (name s) k e 0)), y.world) := by
              rw [hts]
              show (_, World.update y.world s (y.world s)) = _
              rw [hupd]
              rfl
            have hprog : multiProg name r ((n, ks) :: es) accA
                = .call s (.getMulti ks) (andThen outItems fun items => multiProg name r es (accA ++ items)) := by
              simp only [multiProg, hfind]
            rw [hprog] at hy
            have hs : y.step H name r or jobs (.run j)
                = ⟨y.world, fun x => if x = j then some (multiProg name r es (accA ++
                    ks.filterMap fun k => ((y.world s).find k).map fun e => textItem (name s) k e 0)) else y.calls x⟩ := by
              simp only [Pool.Sys.step, hy, hts']
              rfl
            rw [hs]
            refine ⟨_, as ++ [], bs ++ [], .act hz (.multi (g := ks) (gs := cs.map Prod.snd)),
              h.put (la := []) (lb := []) ?_ ?_, fun s _ => by show (y.world s).nextCas ≤ _; omega, ?_⟩
            · rw [List.append_nil, List.append_nil]; exact h.inv
            · rw [List.append_nil, List.append_nil]
              refine .multi es cs _ _ he (fun c hc' => hc c (by simp [hc'])) ?_
              rw [List.map_append, List.map_append, ha]
              congr 1
              apply blind_items
              intro k hk
              have := h.inv.agree k
              rw [(hkk k hk).1] at this
              exact this
            · show z.store.nextCas ≤ _; omega
      | wipe ss hss =>
        cases ss with
        | nil =>
          have hs : y.step H name r or jobs (.run j) = y := by simp only [Pool.Sys.step, hy, flushProg]
          rw [hs]
          exact ⟨z, as, bs, .none (Or.inr ⟨_, _, hz, rfl⟩), h, fun s _ => by omega, by omega⟩
        | cons s ss =>
          have hts : textStep name s .flush y.world = (.ok .done, World.update y.world s (y.world s).flush) :=
            textStep_eq name s .flush y.world trivial (h.inv.good s (hss s (by simp)))
          have hs : y.step H name r or jobs (.run j)
              = ⟨World.update y.world s (y.world s).flush, fun x => if x = j then some (flushProg ss) else y.calls x⟩ := by
            simp only [Pool.Sys.step, hy, flushProg, hts]
            rfl
          rw [hs]
          refine ⟨_, as ++ [], bs ++ [], .act hz .wipe, h.put (la := []) (lb := []) ?_ ?_, ?_, ?_⟩
          · rw [List.append_nil, List.append_nil]; exact h.inv.forget s
          · rw [List.append_nil, List.append_nil]
            exact .wipe ss fun x hx => hss x (by simp [hx])
          · intro x _
            show (if x = s then _ else _ : Store).nextCas ≤ _
            split
            · rename_i hx; subst hx; show (y.world x).nextCas ≤ _; omega
            · omega
          · show z.store.nextCas ≤ _; omega

/-- All moves. -/
theorem PoolSim.moves (hr : IsRing H name servers r) (hne : servers ≠ []) (hd : DistinctNames name servers)
    (hp : ∀ k, r.pick H k = .ok (p k)) (or : Orders S) (hok : ∀ j, IterOrder (or.keys j)) (hos : ∀ j, IterOrder (or.servers j))
    (name0 : Bytes) (jobs : List Step) (hjobs : ∀ st ∈ jobs, GoodStep st) (z0 : Solo S) (moves : List Move) :
    ∀ {y : Pool.Sys S} {z : Solo S} {as bs : List (Res Out)} {pre : List Move}, PoolSim servers p name r y z as bs →
    SoloRun p name0 jobs z0 pre z →
    (∀ s ∈ servers, (y.world s).nextCas + moves.length < 2 ^ 63) → z.store.nextCas + moves.length < 2 ^ 63 →
    ∃ z' as' bs', SoloRun p name0 jobs z0 (pre ++ moves) z' ∧ PoolSim servers p name r (y.run H name r or jobs moves) z' as' bs' := by
  induction moves with
  | nil =>
    intro y z as bs pre h hrun _ _
    exact ⟨z, as, bs, by rw [List.append_nil]; exact hrun, h⟩
  | cons m ms ih =>
    intro y z as bs pre h hrun hcas hcasT
    simp only [List.length_cons] at hcas hcasT
    obtain ⟨z', as', bs', h1, h2, h3, h4⟩ := h.move hr hne hd hp or hok hos name0 jobs hjobs
      (fun s hs => by have := hcas s hs; omega) (by omega) m
    obtain ⟨z'', as'', bs'', h5, h6⟩ := ih h2 (hrun.snoc h1)
      (fun s hs => by have := hcas s hs; have := h3 s hs; omega) (by omega)
    refine ⟨z'', as'', bs'', ?_, h6⟩
    rw [List.append_assoc] at h5
    exact h5

end Simulation

/-- C67: any number of goroutines use one pool, in any schedule.  Whatever they observe, and whatever is stored at any
moment, is what one memcached used by all of them could have given in the same schedule, where a call on one key is
carried out at one moment between its begin and its return; a `GetMulti` is carried out server by server, the keys of
one server at one moment; and a `Flush` server by server. -/
theorem C67_refines (H : Hashes) (name : S → Bytes) (servers : List S) (r : Ring S)
    (hr : IsRing H name servers r) (hne : servers ≠ []) (hd : DistinctNames name servers)
    (p : Bytes → S) (hp : ∀ k, r.pick H k = .ok (p k))
    (or : Orders S) (hok : ∀ j, IterOrder (or.keys j)) (hos : ∀ j, IterOrder (or.servers j))
    (name0 : Bytes) (w : World S) (t : Store)
    (hgood : ∀ s ∈ servers, GoodStore (w s) ∧ PosCas (w s)) (hgoodT : GoodStore t ∧ PosCas t)
    (hnow : ∀ s ∈ servers, (w s).now = t.now) (hsame : ∀ k, SameEntry ((w (p k)).data k) (t.data k))
    (jobs : List Step) (hjobs : ∀ st ∈ jobs, GoodStep st) (moves : List Move)
    (hcas : ∀ s ∈ servers, (w s).nextCas + moves.length < 2 ^ 63) (hcasT : t.nextCas + moves.length < 2 ^ 63) :
    ∃ z, SoloRun p name0 jobs ⟨t, fun _ => none⟩ moves z
      ∧ (∀ j, SameAnswer (((Pool.Sys.start w).run H name r or jobs moves).returned j) (z.returned j))
      ∧ (∀ k, SameEntry ((((Pool.Sys.start w).run H name r or jobs moves).world (p k)).data k) (z.store.data k)) := by
  have hmem : ∀ k, p k ∈ servers := by
    intro k
    obtain ⟨s, hs, hpk⟩ := C05_member hr hne k
    rw [hp] at hpk
    cases hpk
    exact hs
  have h0 : PoolSim servers p name r (Pool.Sys.start w) ⟨t, fun _ => none⟩ [] [] :=
    ⟨⟨hmem, fun s hs => (hgood s hs).1, hgoodT.1, fun s hs => (hgood s hs).2, hgoodT.2,
      fun k => ⟨hnow _ (hmem k), hsame k⟩, ⟨rfl, by simp⟩, by simp⟩, fun j => Or.inl ⟨rfl, rfl⟩⟩
  obtain ⟨z, as, bs, h1, h2⟩ := h0.moves hr hne hd hp or hok hos name0 jobs hjobs ⟨t, fun _ => none⟩ moves .nil hcas hcasT
  refine ⟨z, h1, fun j => ?_, fun k => (h2.inv.agree k).entry⟩
  rw [returned_eq]
  unfold Solo.returned
  rcases h2.calls j with ⟨e1, e2⟩ | ⟨pr, x, e1, e2, hrel⟩
  · rw [e1, e2]; trivial
  · rw [e1, e2]
    show SameAnswer (progResult pr) x.result
    rcases hrel.results with ⟨r1, r2⟩ | ⟨n, a, b, r1, r2, r3, r4⟩ | ⟨a, b, r1, r2, r3, -⟩
    · rw [r1, r2]; trivial
    · rw [r1, r2]; exact h2.inv.alike.2 n a b r3 r4
    · rw [r1, r2]; exact r3

end Props
end Verif
