import Verif.Spec.Pool
import Verif.Props.Ring
/-!
C06, C07, C09: operations of `SinglePool` that involve several servers.  Servers, hash
functions, iteration orders of Go maps and the world the servers act on are arbitrary.
-/

namespace Verif
namespace Props
open Pool Spec

variable {S W : Type}

/-! ### Helper facts about the key map -/

theorem addKey_names (n key : Bytes) (m : List (Bytes × List Bytes)) :
    ∀ x, x ∈ (addKey n key m).map Prod.fst ↔ x = n ∨ x ∈ m.map Prod.fst := by
  intro x
  induction m with
  | nil => simp [addKey]
  | cons e r ih =>
    obtain ⟨a, ks⟩ := e
    unfold addKey
    split
    · rename_i h; subst h; simp
    · simp only [List.map_cons, List.mem_cons, ih]
      constructor <;> (intro h; rcases h with h | h | h <;> simp [h])

theorem addKey_nodup (n key : Bytes) (m : List (Bytes × List Bytes))
    (h : (m.map Prod.fst).Nodup) : ((addKey n key m).map Prod.fst).Nodup := by
  induction m with
  | nil => simp [addKey]
  | cons e r ih =>
    obtain ⟨a, ks⟩ := e
    simp only [List.map_cons, List.nodup_cons] at h
    unfold addKey
    split
    · simpa using h
    · rename_i hne
      simp only [List.map_cons, List.nodup_cons]
      refine ⟨?_, ih h.2⟩
      rw [addKey_names]
      rintro (h' | h')
      · exact hne h'
      · exact h.1 h'

/-- The keys of an entry. -/
def entryOf (m : List (Bytes × List Bytes)) (n : Bytes) : List Bytes :=
  match m.find? (fun e => e.1 == n) with
  | some e => e.2
  | none => []

theorem entryOf_addKey (n key : Bytes) (m : List (Bytes × List Bytes)) (x : Bytes) :
    entryOf (addKey n key m) x = if x = n then entryOf m n ++ [key] else entryOf m x := by
  induction m with
  | nil =>
    by_cases h : x = n
    · simp [addKey, entryOf, h]
    · have : (n == x) = false := by simpa using Ne.symm h
      simp [addKey, entryOf, h, this]
  | cons e r ih =>
    obtain ⟨a, ks⟩ := e
    unfold addKey
    by_cases han : a = n
    · subst han
      rw [if_pos rfl]
      by_cases hx : x = a
      · subst hx; simp [entryOf]
      · have : (a == x) = false := by simpa using Ne.symm hx
        simp [entryOf, this, hx]
    · rw [if_neg han]
      have han' : (a == n) = false := by simpa using han
      by_cases hx : x = n
      · subst hx
        simp only [if_true] at ih
        simp only [entryOf, List.find?_cons, han', if_true] at ih ⊢
        exact ih
      · rw [if_neg hx] at ih ⊢
        by_cases hax : a = x
        · subst hax; simp [entryOf]
        · have hax' : (a == x) = false := by simpa using hax
          simp only [entryOf, List.find?_cons, hax'] at ih ⊢
          exact ih

theorem addKey_nonempty (n key : Bytes) (m : List (Bytes × List Bytes))
    (h : ∀ e ∈ m, e.2 ≠ []) : ∀ e ∈ addKey n key m, e.2 ≠ [] := by
  induction m with
  | nil => intro e he; simp [addKey] at he; subst he; simp
  | cons e r ih =>
    obtain ⟨a, ks⟩ := e
    unfold addKey
    split
    · intro e he
      rcases List.mem_cons.1 he with rfl | he
      · simp
      · exact h e (List.mem_cons_of_mem _ he)
    · intro e he
      rcases List.mem_cons.1 he with rfl | he
      · exact h _ (List.mem_cons_self ..)
      · exact ih (fun e he => h e (List.mem_cons_of_mem _ he)) e he

theorem keyMap_spec (E : Env S W) (r : Ring S) (p : Bytes → S)
    (hp : ∀ k, r.pick E.H k = .ok (p k)) (keys : List Bytes) (m : List (Bytes × List Bytes))
    (hnd : (m.map Prod.fst).Nodup) (hne : ∀ e ∈ m, e.2 ≠ []) :
    ∃ m', keyMap E r keys m = .ok m' ∧ (m'.map Prod.fst).Nodup ∧ (∀ e ∈ m', e.2 ≠ []) ∧
      ∀ n, entryOf m' n = entryOf m n ++ keys.filter (fun k => E.name (p k) == n) := by
  induction keys generalizing m with
  | nil => exact ⟨m, rfl, hnd, hne, by simp⟩
  | cons k ks ih =>
    obtain ⟨m', h1, h2, h3, h4⟩ := ih (addKey (E.name (p k)) k m) (addKey_nodup _ _ _ hnd)
      (addKey_nonempty _ _ _ hne)
    refine ⟨m', ?_, h2, h3, ?_⟩
    · simp only [keyMap, hp, Res.bind_ok, h1]
    · intro n
      rw [h4, entryOf_addKey]
      by_cases hn : n = E.name (p k)
      · subst hn; simp
      · have : (E.name (p k) == n) = false := by simpa using Ne.symm hn
        simp [hn, this]

theorem entryOf_mem {m : List (Bytes × List Bytes)} (hnd : (m.map Prod.fst).Nodup)
    {n : Bytes} {ks : List Bytes} (h : (n, ks) ∈ m) : entryOf m n = ks := by
  induction m with
  | nil => simp at h
  | cons e r ih =>
    obtain ⟨a, l⟩ := e
    simp only [List.map_cons, List.nodup_cons] at hnd
    rcases List.mem_cons.1 h with h | h
    · cases h; simp [entryOf]
    · have hne : a ≠ n := by
        rintro rfl
        exact hnd.1 (List.mem_map_of_mem (f := Prod.fst) h)
      have hne' : (a == n) = false := by simpa using hne
      have := ih hnd.2 h
      simp only [entryOf, List.find?_cons, hne'] at this ⊢
      exact this

theorem mem_of_entryOf {m : List (Bytes × List Bytes)} {n : Bytes} (h : entryOf m n ≠ []) :
    (n, entryOf m n) ∈ m := by
  unfold entryOf at h ⊢
  cases hf : m.find? (fun e => e.1 == n) with
  | none => rw [hf] at h; simp at h
  | some e =>
    have h1 := List.mem_of_find?_eq_some hf
    have h2 := List.find?_some hf
    have : e.1 = n := by simpa using h2
    obtain ⟨a, l⟩ := e
    simp only at this
    subst this
    exact h1

theorem getMultiLoop_eq (E : Env S W) (r : Ring S) (entries : List (Bytes × List Bytes))
    (calls : List (S × List Bytes)) (acc : List Item)
    (h : entries.map (fun e => (r.find E.name e.1, e.2)) = calls.map (fun c => (some c.1, c.2)))
    (w : W) :
    getMultiLoop E r entries acc w = (askAll E.ops calls >>= fun b => pure (acc ++ b)) w := by
  induction entries generalizing calls acc w with
  | nil =>
    cases calls with
    | nil => simp [getMultiLoop, askAll, Act.bind_apply]
    | cons c cs => simp at h
  | cons e es ih =>
    cases calls with
    | nil => simp at h
    | cons c cs =>
      obtain ⟨n, ks⟩ := e
      obtain ⟨s, ks'⟩ := c
      simp only [List.map_cons, List.cons.injEq, Prod.mk.injEq] at h
      obtain ⟨⟨h1, rfl⟩, h2⟩ := h
      simp only [getMultiLoop, h1, askAll, Act.bind_apply]
      cases (E.ops s).getMulti ks w with
      | mk x w' =>
        cases x with
        | ok a =>
          simp only
          rw [ih cs (acc ++ a) h2, Act.bind_apply]
          cases askAll E.ops cs w' with
          | mk y w'' => cases y <;> simp
        | err e => rfl
        | panic => rfl

/-- The calls `GetMulti` makes, in order: which server is asked for which keys. -/
theorem routing_calls [DecidableEq S] (E : Env S W) {servers : List S} {r : Ring S}
    (hr : IsRing E.H E.name servers r) (hne : servers ≠ [])
    (hd : DistinctNames E.name servers)
    (order : List (Bytes × List Bytes) → List (Bytes × List Bytes)) (ho : IterOrder order)
    (keys : List Bytes) :
    ∃ (m : List (Bytes × List Bytes)) (calls : List (S × List Bytes)),
      keyMap E r keys [] = .ok m
      ∧ (order m).map (fun e => (r.find E.name e.1, e.2)) = calls.map (fun c => (some c.1, c.2))
      ∧ (calls.map Prod.fst).Nodup
      ∧ ∀ s ks, (s, ks) ∈ calls ↔
          ks = keys.filter (fun k => r.pick E.H k = .ok s) ∧ ks ≠ [] := by
  have hpick : ∀ k, ∃ s, s ∈ servers ∧ r.pick E.H k = .ok s := fun k => C05_member hr hne k
  obtain ⟨p, hp⟩ := Classical.axiomOfChoice hpick
  have hp1 : ∀ k, r.pick E.H k = .ok (p k) := fun k => (hp k).2
  obtain ⟨m, hm, hnd, hnonempty, hent⟩ := keyMap_spec E r p hp1 keys [] (by simp) (by simp)
  have hent : ∀ n, entryOf m n = keys.filter (fun k => E.name (p k) == n) := by
    intro n; rw [hent]; simp [entryOf]
  -- every entry's name is that of a configured server
  have hfind : ∀ e ∈ m, ∃ s ∈ servers, E.name s = e.1 ∧ r.find E.name e.1 = some s := by
    intro e he
    have h1 := entryOf_mem hnd (n := e.1) (ks := e.2) he
    have h2 := hnonempty e he
    rw [← h1, hent] at h2
    obtain ⟨k, hk⟩ := List.exists_mem_of_ne_nil _ h2
    simp only [List.mem_filter, beq_iff_eq] at hk
    refine ⟨p k, (hp k).1, hk.2, ?_⟩
    rw [← hk.2]
    exact C05_find hr hd _ (hp k).1
  have hsrv : ∃ f : (Bytes × List Bytes) → S, ∀ e ∈ m,
      f e ∈ servers ∧ E.name (f e) = e.1 ∧ r.find E.name e.1 = some (f e) := by
    obtain ⟨s0, _⟩ := List.exists_mem_of_ne_nil _ hne
    have : ∀ e, ∃ s, e ∈ m → s ∈ servers ∧ E.name s = e.1 ∧ r.find E.name e.1 = some s := by
      intro e
      by_cases he : e ∈ m
      · obtain ⟨s, a, b, c⟩ := hfind e he; exact ⟨s, fun _ => ⟨a, b, c⟩⟩
      · exact ⟨s0, fun h => absurd h he⟩
    exact Classical.axiomOfChoice this
  obtain ⟨f, hf⟩ := hsrv
  have hom : ∀ e, e ∈ order m ↔ e ∈ m := fun e => (ho m).mem_iff
  refine ⟨m, (order m).map (fun e => (f e, e.2)), hm, ?_, ?_, ?_⟩
  · simp only [List.map_map]
    apply List.map_congr_left
    intro e he
    simp [(hf e ((hom e).1 he)).2.2]
  · have h1 : (((order m).map (fun e => (f e, e.2))).map Prod.fst).map E.name
        = (order m).map Prod.fst := by
      simp only [List.map_map]
      apply List.map_congr_left
      intro e he
      exact (hf e ((hom e).1 he)).2.1
    have h2 : ((order m).map Prod.fst).Nodup := ((ho m).map Prod.fst).nodup_iff.2 hnd
    rw [← h1] at h2
    exact (List.pairwise_map.1 h2).imp (fun h e => h (congrArg _ e))
  · intro s ks
    have hname : ∀ k, s ∈ servers → (E.name (p k) = E.name s ↔ r.pick E.H k = .ok s) := by
      intro k hs
      rw [hp1]
      constructor
      · intro h; rw [hd _ (hp k).1 _ hs h]
      · intro h; cases h; rfl
    constructor
    · intro h
      obtain ⟨e, he, heq⟩ := List.mem_map.1 h
      have he' := (hom e).1 he
      cases heq
      refine ⟨?_, hnonempty e he'⟩
      rw [← entryOf_mem hnd (n := e.1) (ks := e.2) he', hent]
      apply List.filter_congr
      intro k _
      have := hname k (hf e he').1
      rw [(hf e he').2.1] at this
      rw [Bool.eq_iff_iff, beq_iff_eq, decide_eq_true_eq]
      exact this
    · rintro ⟨h1, h2⟩
      subst h1
      obtain ⟨k, hk⟩ := List.exists_mem_of_ne_nil _ h2
      simp only [List.mem_filter, decide_eq_true_eq] at hk
      have hs : s ∈ servers := by
        have := hp k
        rw [hk.2] at this
        obtain ⟨a, b⟩ := this
        cases b
        exact a
      have hfe : keys.filter (fun k => decide (r.pick E.H k = .ok s)) = entryOf m (E.name s) := by
        rw [hent]
        apply List.filter_congr
        intro k _
        rw [Bool.eq_iff_iff, beq_iff_eq, decide_eq_true_eq]
        exact (hname k hs).symm
      have hmem : (E.name s, entryOf m (E.name s)) ∈ m := mem_of_entryOf (hfe ▸ h2)
      refine List.mem_map.2 ⟨(E.name s, entryOf m (E.name s)), (hom _).2 hmem, ?_⟩
      have h3 := hf _ hmem
      rw [hd _ h3.1 _ hs h3.2.1, hfe]

/-- C06: whatever the iteration order of the map, `GetMulti` asks servers one after the other
(`askAll calls`), no server twice, and each exactly for those of the requested keys that
`Pick` assigns to it, in the order requested and with repetitions; a server to which no key
belongs is not asked. -/
theorem C06_routing [DecidableEq S] (E : Env S W) {servers : List S} {r : Ring S}
    (hr : IsRing E.H E.name servers r) (hne : servers ≠ [])
    (hd : DistinctNames E.name servers)
    (order : List (Bytes × List Bytes) → List (Bytes × List Bytes)) (ho : IterOrder order)
    (keys : List Bytes) :
    ∃ calls : List (S × List Bytes),
      getMulti E r order keys = askAll E.ops calls
      ∧ (calls.map Prod.fst).Nodup
      ∧ ∀ s ks, (s, ks) ∈ calls ↔
          ks = keys.filter (fun k => r.pick E.H k = .ok s) ∧ ks ≠ [] := by
  obtain ⟨m, calls, hm, hc, h1, h2⟩ := routing_calls E hr hne hd order ho keys
  refine ⟨calls, ?_, h1, h2⟩
  funext w
  show (Act.lift (keyMap E r keys []) >>= fun m => getMultiLoop E r (order m) []) w = _
  rw [hm]
  show getMultiLoop E r (order m) [] w = _
  rw [getMultiLoop_eq E r (order m) calls [] hc, Act.bind_apply]
  cases askAll E.ops calls w with
  | mk y w'' => cases y <;> simp

/-! ### C07 -/

theorem askAll_err (ops : S → ServerOps W) (calls : List (S × List Bytes)) (w w' : W) (e : Err)
    (h : askAll ops calls w = (.err e, w')) :
    ∃ pre s ks post items w1, calls = pre ++ (s, ks) :: post ∧ askAll ops pre w = (.ok items, w1)
      ∧ (ops s).getMulti ks w1 = (.err e, w') := by
  induction calls generalizing w with
  | nil => simp [askAll] at h
  | cons c cs ih =>
    obtain ⟨s, ks⟩ := c
    simp only [askAll, Act.bind_apply] at h
    cases hg : (ops s).getMulti ks w with
    | mk x w1 =>
      rw [hg] at h
      cases x with
      | panic => simp at h
      | err e' =>
        simp only [Prod.mk.injEq, Res.err.injEq] at h
        obtain ⟨rfl, rfl⟩ := h
        exact ⟨[], s, ks, cs, [], w, rfl, rfl, hg⟩
      | ok a =>
        simp only at h
        cases hb : askAll ops cs w1 with
        | mk y w2 =>
          rw [hb] at h
          cases y with
          | panic => simp at h
          | ok b => simp at h
          | err e' =>
            simp only [Prod.mk.injEq, Res.err.injEq] at h
            obtain ⟨rfl, rfl⟩ := h
            obtain ⟨pre, s', ks', post, items, w3, rfl, h1, h2⟩ := ih w1 hb
            refine ⟨(s, ks) :: pre, s', ks', post, a ++ items, w3, rfl, ?_, h2⟩
            simp [askAll, Act.bind_apply, hg, h1]

/-- C07: the call fails with error `e` in only one way: some servers were asked (each for the
keys assigned to it) and answered, the next one failed with `e`, and no server was asked after
that (the world is the one that server left). -/
theorem C07_error [DecidableEq S] (E : Env S W) {servers : List S} {r : Ring S}
    (hr : IsRing E.H E.name servers r) (hne : servers ≠ [])
    (hd : DistinctNames E.name servers)
    (order : List (Bytes × List Bytes) → List (Bytes × List Bytes)) (ho : IterOrder order)
    (keys : List Bytes) (w w' : W) (e : Err) (h : getMulti E r order keys w = (.err e, w')) :
    ∃ pre s ks items w1,
      (∀ t l, (t, l) ∈ pre ++ [(s, ks)] → l = keys.filter (fun k => r.pick E.H k = .ok t) ∧ l ≠ [])
      ∧ ((pre ++ [(s, ks)]).map Prod.fst).Nodup
      ∧ askAll E.ops pre w = (.ok items, w1) ∧ (E.ops s).getMulti ks w1 = (.err e, w') := by
  obtain ⟨calls, h1, hnd, h2⟩ := C06_routing E hr hne hd order ho keys
  rw [h1] at h
  obtain ⟨pre, s, ks, post, items, w1, rfl, h3, h4⟩ := askAll_err _ _ _ _ _ h
  refine ⟨pre, s, ks, items, w1, ?_, ?_, h3, h4⟩
  · intro t l ht
    refine (h2 t l).1 ?_
    rcases List.mem_append.1 ht with h | h
    · exact List.mem_append_left _ h
    · simp at h; obtain ⟨rfl, rfl⟩ := h; simp
  · have : (pre ++ (s, ks) :: post).map Prod.fst
        = (pre ++ [(s, ks)]).map Prod.fst ++ post.map Prod.fst := by simp
    rw [this, List.nodup_append] at hnd
    exact hnd.1

/-- C07: one failing server makes the whole call fail, whatever the order: if the server of a
requested key fails whenever it is asked and no server panics, the result is an error and no
items. -/
theorem C07_any_failure [DecidableEq S] (E : Env S W) {servers : List S} {r : Ring S}
    (hr : IsRing E.H E.name servers r) (hne : servers ≠ [])
    (hd : DistinctNames E.name servers)
    (order : List (Bytes × List Bytes) → List (Bytes × List Bytes)) (ho : IterOrder order)
    (keys : List Bytes) (k : Bytes) (hk : k ∈ keys) (s : S) (hs : r.pick E.H k = .ok s)
    (hfail : ∀ ks w, ∃ e w', (E.ops s).getMulti ks w = (.err e, w'))
    (hnp : ∀ t ks w, ((E.ops t).getMulti ks w).1 ≠ .panic) (w : W) :
    ∃ e w', getMulti E r order keys w = (.err e, w') := by
  obtain ⟨calls, h1, hx, h2⟩ := C06_routing E hr hne hd order ho keys
  rw [h1]
  clear hx
  have hmem : (s, keys.filter (fun k => r.pick E.H k = .ok s)) ∈ calls :=
    (h2 _ _).2 ⟨rfl, List.ne_nil_of_mem (List.mem_filter.2 ⟨hk, by simpa using hs⟩)⟩
  generalize keys.filter (fun k => r.pick E.H k = .ok s) = ks0 at hmem
  clear h1 h2
  induction calls generalizing w with
  | nil => simp at hmem
  | cons c cs ih =>
    obtain ⟨t, ks⟩ := c
    simp only [askAll, Act.bind_apply]
    have hnp' := hnp t ks w
    cases hg : (E.ops t).getMulti ks w with
    | mk x w1 =>
      rw [hg] at hnp'
      cases x with
      | panic => exact absurd rfl hnp'
      | err e => exact ⟨e, w1, rfl⟩
      | ok a =>
        rcases List.mem_cons.1 hmem with heq | hin
        · cases heq
          obtain ⟨e, w', he⟩ := hfail ks0 w
          rw [hg] at he
          simp at he
        · obtain ⟨e, w', he⟩ := ih w1 hin
          exact ⟨e, w', by simp [he]⟩

theorem flatMap_insert {β : Type} [DecidableEq S] (L : List S) (hnd : L.Nodup) (a : S)
    (ha : a ∈ L) (x : β) (g : S → List β) :
    (L.flatMap (fun s => if a = s then x :: g s else g s)).Perm (x :: L.flatMap g) := by
  induction L with
  | nil => simp at ha
  | cons b L ih =>
    obtain ⟨h1, h2⟩ := List.nodup_cons.1 hnd
    by_cases hab : a = b
    · subst hab
      have : L.flatMap (fun s => if a = s then x :: g s else g s) = L.flatMap g := by
        simp only [List.flatMap]
        congr 1
        apply List.map_congr_left
        intro s hs
        have : a ≠ s := by rintro rfl; exact h1 hs
        simp [this]
      simp [this]
    · rcases List.mem_cons.1 ha with rfl | ha
      · exact absurd rfl hab
      · simp only [List.flatMap_cons, if_neg hab]
        refine ((ih h2 ha).append_left _).trans ?_
        exact List.perm_middle

theorem partition_perm [DecidableEq S] (p : Bytes → S) (L : List S) (hnd : L.Nodup)
    (keys : List Bytes) (h : ∀ k ∈ keys, p k ∈ L) :
    (L.flatMap (fun s => keys.filter (fun k => p k = s))).Perm keys := by
  induction keys with
  | nil => simp
  | cons k ks ih =>
    have h1 := flatMap_insert L hnd (p k) (h k (List.mem_cons_self ..)) k
      (fun s => ks.filter (fun k => p k = s))
    have h2 : L.flatMap (fun s => (k :: ks).filter (fun k => p k = s))
        = L.flatMap (fun s => if p k = s then k :: ks.filter (fun k => p k = s)
            else ks.filter (fun k => p k = s)) := by
      congr 1
      funext s
      by_cases hs : p k = s <;> simp [hs]
    rw [h2]
    exact h1.trans ((ih (fun k hk => h k (List.mem_cons_of_mem _ hk))).cons k)

theorem filterMap_congr' {α β : Type} {f g : α → Option β} {l : List α}
    (h : ∀ x ∈ l, f x = g x) : l.filterMap f = l.filterMap g := by
  induction l with
  | nil => rfl
  | cons x xs ih =>
    simp only [List.filterMap_cons, h x (List.mem_cons_self ..),
      ih (fun y hy => h y (List.mem_cons_of_mem _ hy))]

/-- C07: if every server `s` answers from its contents `content s`, the call returns exactly
the hits of the requested keys, each looked up on the server it is assigned to: nothing is
lost, invented or duplicated, only the order depends on the map iteration. -/
theorem C07_hits [DecidableEq S] (E : Env S W) {servers : List S} {r : Ring S}
    (hr : IsRing E.H E.name servers r) (hne : servers ≠ [])
    (hd : DistinctNames E.name servers)
    (order : List (Bytes × List Bytes) → List (Bytes × List Bytes)) (ho : IterOrder order)
    (keys : List Bytes) (content : S → Bytes → Option Item) (w : W)
    (hans : ∀ s ∈ servers, ∀ ks, ks ≠ [] → (∀ k ∈ ks, k ∈ keys) →
      (E.ops s).getMulti ks w = (.ok (ks.filterMap (content s)), w))
    (p : Bytes → S) (hp : ∀ k, r.pick E.H k = .ok (p k)) :
    ∃ items, getMulti E r order keys w = (.ok items, w)
      ∧ items.Perm (keys.filterMap (fun k => content (p k) k)) := by
  obtain ⟨calls, h1, hnd, h2⟩ := C06_routing E hr hne hd order ho keys
  refine ⟨calls.flatMap (fun c => c.2.filterMap (content c.1)), ?_, ?_⟩
  · rw [h1]
    have hcall : ∀ c ∈ calls, (E.ops c.1).getMulti c.2 w = (.ok (c.2.filterMap (content c.1)), w) := by
      rintro ⟨s, ks⟩ hc
      obtain ⟨rfl, hks⟩ := (h2 s ks).1 hc
      refine hans s ?_ _ hks (fun k hk => (List.mem_filter.1 hk).1)
      obtain ⟨k, hk⟩ := List.exists_mem_of_ne_nil _ hks
      have hk := (List.mem_filter.1 hk).2
      obtain ⟨t, ht, hpt⟩ := C05_member hr hne k
      simp only [decide_eq_true_eq] at hk
      rw [hpt] at hk
      cases hk
      exact ht
    clear h1 h2 hnd
    induction calls with
    | nil => rfl
    | cons c cs ih =>
      obtain ⟨s, ks⟩ := c
      have h1 := hcall (s, ks) (by simp)
      have h2 := ih (fun c hc => hcall c (by simp [hc]))
      simp only at h1
      simp [askAll, Act.bind_apply, h1, h2]
  · have hfst : calls.flatMap (fun c => c.2.filterMap (content c.1))
        = ((calls.map Prod.fst).flatMap (fun s => keys.filter (fun k => p k = s))).filterMap
            (fun k => content (p k) k) := by
      rw [List.filterMap_flatMap, List.flatMap_map]
      simp only [List.flatMap]
      congr 1
      apply List.map_congr_left
      rintro ⟨s, ks⟩ hc
      obtain ⟨h3, _⟩ := (h2 s ks).1 hc
      subst h3
      have : keys.filter (fun k => decide (r.pick E.H k = .ok s))
          = keys.filter (fun k => decide (p k = s)) := by
        apply List.filter_congr
        intro k _
        rw [hp]
        simp
      simp only [this]
      apply filterMap_congr'
      intro k hk
      simp only [List.mem_filter, decide_eq_true_eq] at hk
      rw [hk.2]
    rw [hfst]
    refine List.Perm.filterMap _ (partition_perm p _ hnd keys ?_)
    intro k hk
    have : (p k, keys.filter (fun k' => r.pick E.H k' = .ok (p k))) ∈ calls :=
      (h2 _ _).2 ⟨rfl, List.ne_nil_of_mem (List.mem_filter.2 ⟨hk, by simpa using hp k⟩)⟩
    exact List.mem_map_of_mem (f := Prod.fst) this

/-! ### C09 -/

/-- Which servers the map holds. -/
theorem values_spec (name : S → Bytes) (servers : List S) :
    let vs := servers.foldl (fun acc s => acc.filter (fun t => name t != name s) ++ [s]) []
    (vs.map name).Nodup ∧ ∀ s, s ∈ vs ↔ Registered name servers s := by
  intro vs
  have gen : ∀ (done rest : List S) (acc : List S),
      ((acc.map name).Nodup ∧ ∀ s, s ∈ acc ↔ Registered name done s) →
      (((rest.foldl (fun acc s => acc.filter (fun t => name t != name s) ++ [s]) acc).map name).Nodup
        ∧ ∀ s, s ∈ rest.foldl (fun acc s => acc.filter (fun t => name t != name s) ++ [s]) acc
            ↔ Registered name (done ++ rest) s) := by
    intro done rest
    induction rest generalizing done with
    | nil => intro acc h; simpa using h
    | cons x xs ih =>
      intro acc h
      have := ih (done ++ [x]) (acc.filter (fun t => name t != name x) ++ [x]) ?_
      · simpa using this
      · refine ⟨?_, ?_⟩
        · rw [List.map_append, List.nodup_append]
          refine ⟨?_, by simp, ?_⟩
          · exact List.Nodup.sublist (List.Sublist.map _ List.filter_sublist) h.1
          · intro a ha b hb
            simp only [List.mem_map, List.mem_filter, bne_iff_ne] at ha
            obtain ⟨t, ⟨_, h3⟩, rfl⟩ := ha
            simp at hb
            subst hb
            exact h3
        · intro s
          simp only [List.mem_append, List.mem_filter, bne_iff_ne, List.mem_singleton]
          constructor
          · rintro (⟨h3, h4⟩ | rfl)
            · obtain ⟨pre, post, rfl, h5⟩ := (h.2 s).1 h3
              refine ⟨pre, post ++ [x], by simp, ?_⟩
              intro t ht
              rcases List.mem_append.1 ht with ht | ht
              · exact h5 t ht
              · simp at ht; subst ht; exact Ne.symm h4
            · exact ⟨done, [], rfl, by simp⟩
          · rintro ⟨pre, post, heq, h5⟩
            rcases List.eq_nil_or_concat post with rfl | ⟨post', y, rfl⟩
            · right
              have := List.append_inj' (s₁ := done) (t₁ := [x]) (s₂ := pre) (t₂ := [s]) heq rfl
              simpa using this.2.symm
            · left
              have heq' : done ++ [x] = (pre ++ s :: post') ++ [y] := by simpa using heq
              have hi := List.append_inj' heq' rfl
              have hxy : x = y := by simpa using hi.2
              subst hxy
              refine ⟨(h.2 s).2 ⟨pre, post', hi.1, fun t ht => h5 t (by simp [ht])⟩, ?_⟩
              exact Ne.symm (h5 x (by simp))
  have := gen [] servers [] ⟨by simp, by
    intro s
    simp only [List.not_mem_nil, false_iff]
    rintro ⟨pre, post, h, _⟩
    simp at h⟩
  simpa using this

theorem each_ok {fn : S → Act W Unit} {l : List S} {w w' : W}
    (h : each fn l w = (.ok (), w')) : AllCalled fn (l.map (fun s => (s, ()))) w w' := by
  induction l generalizing w with
  | nil => simp [each] at h; subst h; exact .nil w
  | cons s ss ih =>
    simp only [each, Act.bind_apply] at h
    cases hs : fn s w with
    | mk x w1 =>
      rw [hs] at h
      cases x with
      | ok a => exact .cons hs (ih h)
      | err e => simp at h
      | panic => simp at h

theorem each_err {fn : S → Act W Unit} {l : List S} {w w' : W} {e : Err}
    (h : each fn l w = (.err e, w')) :
    ∃ pre s post w1, l = pre ++ s :: post ∧ AllCalled fn (pre.map (fun s => (s, ()))) w w1
      ∧ fn s w1 = (.err e, w') := by
  induction l generalizing w with
  | nil => simp [each] at h
  | cons s ss ih =>
    simp only [each, Act.bind_apply] at h
    cases hs : fn s w with
    | mk x w1 =>
      rw [hs] at h
      cases x with
      | ok a =>
        obtain ⟨pre, t, post, w2, rfl, h1, h2⟩ := ih h
        exact ⟨s :: pre, t, post, w2, rfl, .cons hs h1, h2⟩
      | err e' =>
        simp only [Prod.mk.injEq, Res.err.injEq] at h
        obtain ⟨rfl, rfl⟩ := h
        exact ⟨[], s, ss, w, rfl, .nil w, hs⟩
      | panic => simp at h

/-- A list of servers in which every registered server occurs exactly once. -/
def ListsRegistered (name : S → Bytes) (servers l : List S) : Prop :=
  l.Nodup ∧ ∀ s, s ∈ l ↔ Registered name servers s

theorem order_values {E : Env S W} {servers : List S} {r : Ring S}
    (hr : IsRing E.H E.name servers r) {order : List S → List S} (ho : IterOrder order) :
    ListsRegistered E.name servers (order (r.values E.name)) := by
  have h := values_spec E.name servers
  unfold Ring.values
  rw [hr.2]
  refine ⟨(ho _).nodup_iff.2 ?_, fun s => (ho _).mem_iff.trans (h.2 s)⟩
  exact (List.pairwise_map.1 h.1).imp (fun h e => h (congrArg _ e))

theorem registered_cons {name : S → Bytes} {x : S} {xs : List S} {s : S} (h : Registered name xs s) :
    Registered name (x :: xs) s := by
  obtain ⟨pre, post, rfl, h⟩ := h
  exact ⟨x :: pre, post, rfl, h⟩

/-- With distinct names, the registered servers are all of them (even if one was configured
twice). -/
theorem registered_mem {name : S → Bytes} {servers : List S}
    (hd : DistinctNames name servers) (s : S) : Registered name servers s ↔ s ∈ servers := by
  constructor
  · rintro ⟨pre, post, rfl, _⟩; simp
  · intro h
    induction servers with
    | nil => simp at h
    | cons x xs ih =>
      have hd' : DistinctNames name xs := fun a ha b hb => hd a (by simp [ha]) b (by simp [hb])
      by_cases hs : s ∈ xs
      · exact registered_cons (ih hd' hs)
      · have hx : s = x := by simpa [hs] using h
        subst hx
        refine ⟨[], xs, rfl, fun t ht he => ?_⟩
        have := hd t (by simp [ht]) s (by simp) he
        exact hs (this ▸ ht)

/-- With distinct servers of distinct names, the registered ones are all of them. -/
theorem registered_iff {name : S → Bytes} {servers : List S} (hnd : servers.Nodup)
    (hd : DistinctNames name servers) (s : S) : Registered name servers s ↔ s ∈ servers := by
  constructor
  · rintro ⟨pre, post, rfl, _⟩; simp
  · intro h
    obtain ⟨pre, post, rfl⟩ := List.append_of_mem h
    refine ⟨pre, post, rfl, ?_⟩
    intro t ht he
    have : t = s := hd t (by simp [ht]) s (by simp) he
    subst this
    rw [List.nodup_append] at hnd
    exact (List.nodup_cons.1 hnd.2.1).1 ht

/-- C09: `Flush` without an error has flushed every server of the pool exactly once. -/
theorem C09_flush_ok (E : Env S W) {servers : List S} {r : Ring S}
    (hr : IsRing E.H E.name servers r) (order : List S → List S) (ho : IterOrder order)
    (w w' : W) (h : flush E r order w = (.ok (), w')) :
    ∃ l, ListsRegistered E.name servers l
      ∧ AllCalled (fun s => (E.ops s).flush) (l.map (fun s => (s, ()))) w w' :=
  ⟨_, order_values hr ho, each_ok h⟩

/-- C09: `Flush` with error `e`: some servers were flushed, then one failed with `e`, and the
remaining ones (`post`) were not called at all. -/
theorem C09_flush_err (E : Env S W) {servers : List S} {r : Ring S}
    (hr : IsRing E.H E.name servers r) (order : List S → List S) (ho : IterOrder order)
    (w w' : W) (e : Err) (h : flush E r order w = (.err e, w')) :
    ∃ pre s post w1, ListsRegistered E.name servers (pre ++ s :: post)
      ∧ AllCalled (fun s => (E.ops s).flush) (pre.map (fun s => (s, ()))) w w1
      ∧ (E.ops s).flush w1 = (.err e, w') := by
  obtain ⟨pre, s, post, w1, h1, h2, h3⟩ := each_err h
  exact ⟨pre, s, post, w1, h1 ▸ order_values hr ho, h2, h3⟩

/-- C09: the same for `Close`. -/
theorem C09_close_ok (E : Env S W) {servers : List S} {r : Ring S}
    (hr : IsRing E.H E.name servers r) (order : List S → List S) (ho : IterOrder order)
    (w w' : W) (h : close E r order w = (.ok (), w')) :
    ∃ l, ListsRegistered E.name servers l
      ∧ AllCalled (fun s => (E.ops s).close) (l.map (fun s => (s, ()))) w w' :=
  ⟨_, order_values hr ho, each_ok h⟩

theorem C09_close_err (E : Env S W) {servers : List S} {r : Ring S}
    (hr : IsRing E.H E.name servers r) (order : List S → List S) (ho : IterOrder order)
    (w w' : W) (e : Err) (h : close E r order w = (.err e, w')) :
    ∃ pre s post w1, ListsRegistered E.name servers (pre ++ s :: post)
      ∧ AllCalled (fun s => (E.ops s).close) (pre.map (fun s => (s, ()))) w w1
      ∧ (E.ops s).close w1 = (.err e, w') := by
  obtain ⟨pre, s, post, w1, h1, h2, h3⟩ := each_err h
  exact ⟨pre, s, post, w1, h1 ▸ order_values hr ho, h2, h3⟩

theorem versionLoop_spec (E : Env S W) (l : List S) (acc : List (Bytes × Bytes)) (w : W) :
    (∃ vs w', versionLoop E l acc w = ((acc ++ vs.map (fun v => (E.name v.1, v.2)), .ok ()), w')
        ∧ vs.map Prod.fst = l ∧ AllCalled (fun s => (E.ops s).version) vs w w')
    ∨ (∃ vs s post w1 x w', versionLoop E l acc w = ((acc ++ vs.map (fun v => (E.name v.1, v.2)), x), w')
        ∧ l = vs.map Prod.fst ++ s :: post ∧ AllCalled (fun s => (E.ops s).version) vs w w1
        ∧ ((∃ e, x = .err e ∧ (E.ops s).version w1 = (.err e, w'))
            ∨ (x = .panic ∧ (E.ops s).version w1 = (.panic, w')))) := by
  induction l generalizing acc w with
  | nil => exact Or.inl ⟨[], w, by simp [versionLoop], rfl, .nil w⟩
  | cons s ss ih =>
    cases hs : (E.ops s).version w with
    | mk x w1 =>
      cases x with
      | ok v =>
        have hstep : versionLoop E (s :: ss) acc w
            = versionLoop E ss (acc ++ [(E.name s, v)]) w1 := by simp [versionLoop, hs]
        rw [hstep]
        rcases ih (acc ++ [(E.name s, v)]) w1 with ⟨vs, w', h1, h2, h3⟩ | ⟨vs, t, post, w2, x, w', h1, h2, h3, h4⟩
        · exact Or.inl ⟨(s, v) :: vs, w', by simpa using h1, by simp [h2], .cons hs h3⟩
        · exact Or.inr ⟨(s, v) :: vs, t, post, w2, x, w', by simpa using h1, by simp [h2],
            .cons hs h3, h4⟩
      | err e =>
        exact Or.inr ⟨[], s, ss, w, .err e, w1, by simp [versionLoop, hs], rfl, .nil w,
          Or.inl ⟨e, rfl, hs⟩⟩
      | panic =>
        exact Or.inr ⟨[], s, ss, w, .panic, w1, by simp [versionLoop, hs], rfl, .nil w,
          Or.inr ⟨rfl, hs⟩⟩

/-- C09: `Version` without an error returns, for every server of the pool, its name with the
version that server reported, each asked exactly once. -/
theorem C09_version_ok (E : Env S W) {servers : List S} {r : Ring S}
    (hr : IsRing E.H E.name servers r) (order : List S → List S) (ho : IterOrder order)
    (w w' : W) (m : List (Bytes × Bytes)) (h : version E r order w = ((m, .ok ()), w')) :
    ∃ vs, ListsRegistered E.name servers (vs.map Prod.fst)
      ∧ AllCalled (fun s => (E.ops s).version) vs w w'
      ∧ m = vs.map (fun v => (E.name v.1, v.2)) := by
  unfold version at h
  rcases versionLoop_spec E (order (r.values E.name)) [] w with
    ⟨vs, w2, h1, h2, h3⟩ | ⟨vs, t, post, w2, x, w3, h1, h2, h3, h4⟩
  · rw [h] at h1
    simp only [List.nil_append, Prod.mk.injEq, true_and, and_true] at h1
    obtain ⟨rfl, rfl⟩ := h1
    exact ⟨vs, h2 ▸ order_values hr ho, h3, rfl⟩
  · rw [h] at h1
    simp only [Prod.mk.injEq] at h1
    obtain ⟨⟨_, h5⟩, _⟩ := h1
    rcases h4 with ⟨e, rfl, _⟩ | ⟨rfl, _⟩ <;> simp at h5

/-- C09: `Version` with an error still returns the versions obtained before it, and asks no
further server. -/
theorem C09_version_err (E : Env S W) {servers : List S} {r : Ring S}
    (hr : IsRing E.H E.name servers r) (order : List S → List S) (ho : IterOrder order)
    (w w' : W) (m : List (Bytes × Bytes)) (e : Err)
    (h : version E r order w = ((m, .err e), w')) :
    ∃ vs s post w1, ListsRegistered E.name servers (vs.map Prod.fst ++ s :: post)
      ∧ AllCalled (fun s => (E.ops s).version) vs w w1 ∧ (E.ops s).version w1 = (.err e, w')
      ∧ m = vs.map (fun v => (E.name v.1, v.2)) := by
  unfold version at h
  rcases versionLoop_spec E (order (r.values E.name)) [] w with
    ⟨vs, w2, h1, h2, h3⟩ | ⟨vs, t, post, w2, x, w3, h1, h2, h3, h4⟩
  · rw [h] at h1; simp at h1
  · rw [h] at h1
    simp only [List.nil_append, Prod.mk.injEq] at h1
    obtain ⟨⟨rfl, rfl⟩, rfl⟩ := h1
    refine ⟨vs, t, post, w2, h2 ▸ order_values hr ho, h3, ?_, rfl⟩
    rcases h4 with ⟨e', he, h5⟩ | ⟨he, _⟩
    · cases he; exact h5
    · simp at he

/-- Every listed server was closed, whether or not this succeeded; `last` is the last error. -/
inductive ClosedAll (ops : S → ServerOps W) : List S → Res Unit → W → Res Unit → W → Prop where
  | nil (acc : Res Unit) (w : W) : ClosedAll ops [] acc w acc w
  | ok {s : S} {ss : List S} {acc res : Res Unit} {w w1 w2 : W}
      (h : (ops s).close w = (.ok (), w1)) (hr : ClosedAll ops ss acc w1 res w2) :
      ClosedAll ops (s :: ss) acc w res w2
  | err {s : S} {ss : List S} {acc res : Res Unit} {w w1 w2 : W} {e : Err}
      (h : (ops s).close w = (.err e, w1)) (hr : ClosedAll ops ss (.err e) w1 res w2) :
      ClosedAll ops (s :: ss) acc w res w2

/-- C09: the ring's own `Close` calls every server even after errors and returns the last
error (nil when there was none). -/
theorem C09_ring_close (E : Env S W) {servers : List S} {r : Ring S}
    (hr : IsRing E.H E.name servers r) (order : List S → List S) (ho : IterOrder order)
    (hnp : ∀ s w, ((E.ops s).close w).1 ≠ .panic) (w : W) :
    ∃ l res w', ListsRegistered E.name servers l ∧ ringClose E r order w = (res, w')
      ∧ ClosedAll E.ops l (.ok ()) w res w' := by
  unfold ringClose
  have gen : ∀ (l : List S) (acc : Res Unit) (w : W), ∃ res w',
      ringCloseLoop E l acc w = (res, w') ∧ ClosedAll E.ops l acc w res w' := by
    intro l
    induction l with
    | nil => intro acc w; exact ⟨acc, w, rfl, .nil acc w⟩
    | cons s ss ih =>
      intro acc w
      have hnp' := hnp s w
      cases hs : (E.ops s).close w with
      | mk x w1 =>
        rw [hs] at hnp'
        cases x with
        | ok a =>
          obtain ⟨res, w', h1, h2⟩ := ih acc w1
          exact ⟨res, w', by simp [ringCloseLoop, hs, h1], .ok hs h2⟩
        | err e =>
          obtain ⟨res, w', h1, h2⟩ := ih (.err e) w1
          exact ⟨res, w', by simp [ringCloseLoop, hs, h1], .err hs h2⟩
        | panic => exact absurd rfl hnp'
  obtain ⟨res, w', h1, h2⟩ := gen (order (r.values E.name)) (.ok ()) w
  exact ⟨_, res, w', order_values hr ho, h1, h2⟩

/-! ### The hypotheses are met: two servers that count how often they are asked -/

/-- Two servers named "a" and "b"; each answers a multi-get with one item per key and logs the
call in the world. -/
def demoEnv : Env Bytes (List (Bytes × List Bytes)) where
  H := ⟨fun b => getBE b % 1000, fun b => getBE b % 1000⟩
  name := id
  ops s :=
    { get := fun k => pure { key := k, server := s }
      getMulti := fun ks w => (.ok (ks.map fun k => { key := k, server := s }), w ++ [(s, ks)])
      set := fun _ => pure (), add := fun _ => pure (), replace := fun _ => pure ()
      delete := fun _ => pure (), increment := fun _ _ _ => pure 0
      decrement := fun _ _ _ => pure 0, touch := fun _ _ => pure ()
      flush := pure (), version := pure s, close := pure () }

example : DistinctNames demoEnv.name [b!"a", b!"b"] := by
  intro a _ b _ h; exact h

example : ∃ r, IsRing demoEnv.H demoEnv.name [b!"a", b!"b"] r := exists_ring ..

example : IterOrder (List.reverse : List (Bytes × List Bytes) → _) := List.reverse_perm

end Props
end Verif
