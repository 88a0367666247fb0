import Verif.Spec.Accepts
import Verif.Props.AnyText
import Verif.Props.Values
import Verif.Props.ClientPanics
import Verif.Lemmas.Drained
/-!
C70: the replies to Get and GetMulti the meta client accepts: exactly those of `Spec/Accepts.lean`.
-/

namespace Verif
namespace Props
open Spec

/-! ### Fields -/

theorem fields_append {a b : List (UInt8 × Bytes)} {i k : Item} :
    Fields (a ++ b) i k ↔ ∃ j, Fields a i j ∧ Fields b j k := by
  induction a generalizing i with
  | nil =>
    constructor
    · intro h; exact ⟨i, .nil _, h⟩
    · rintro ⟨j, h, h'⟩; cases h; exact h'
  | cons p a ih =>
    rw [List.cons_append]
    constructor
    · intro h
      cases h with
      | flags h1 h => obtain ⟨j, h2, h3⟩ := ih.1 h; exact ⟨j, .flags h1 h2, h3⟩
      | cas h1 h => obtain ⟨j, h2, h3⟩ := ih.1 h; exact ⟨j, .cas h1 h2, h3⟩
      | ttl h1 h => obtain ⟨j, h2, h3⟩ := ih.1 h; exact ⟨j, .ttl h1 h2, h3⟩
      | key h => obtain ⟨j, h2, h3⟩ := ih.1 h; exact ⟨j, .key h2, h3⟩
    · rintro ⟨j, h, h'⟩
      cases h with
      | flags h1 h => exact .flags h1 (ih.2 ⟨j, h, h'⟩)
      | cas h1 h => exact .cas h1 (ih.2 ⟨j, h, h'⟩)
      | ttl h1 h => exact .ttl h1 (ih.2 ⟨j, h, h'⟩)
      | key h => exact .key (ih.2 ⟨j, h, h'⟩)

theorem token_iff {c : UInt8} (hc : isField c = true) {v : Bytes} {i j : Item} :
    Meta.readGetFlagToken c v i = .ok j ↔ Fields [(c, v)] i j := by
  have h4 : c = 102 ∨ c = 99 ∨ c = 116 ∨ c = 107 := by simpa [isField] using hc
  unfold Meta.readGetFlagToken
  rcases h4 with rfl | rfl | rfl | rfl
  · rw [if_pos rfl, bind_ok_iff]
    constructor
    · rintro ⟨n, hn, h⟩
      simp only [Res.pure_eq, Res.ok.injEq] at h
      subst h
      exact .flags ((parseInt_iff (by omega)).1 (numRes_ok.1 hn)) (.nil _)
    · intro h
      cases h with
      | flags h1 h => cases h; exact ⟨_, numRes_ok.2 ((parseInt_iff (by omega)).2 h1), rfl⟩
  · rw [if_neg (by decide), if_pos rfl, bind_ok_iff]
    constructor
    · rintro ⟨n, hn, h⟩
      simp only [Res.pure_eq, Res.ok.injEq] at h
      subst h
      exact .cas ((parseInt_iff (by omega)).1 (numRes_ok.1 hn)) (.nil _)
    · intro h
      cases h with
      | cas h1 h => cases h; exact ⟨_, numRes_ok.2 ((parseInt_iff (by omega)).2 h1), rfl⟩
  · rw [if_neg (by decide), if_neg (by decide), if_pos rfl, bind_ok_iff]
    constructor
    · rintro ⟨n, hn, h⟩
      simp only [Res.pure_eq, Res.ok.injEq] at h
      subst h
      exact .ttl ((parseInt_iff (by omega)).1 (numRes_ok.1 hn)) (.nil _)
    · intro h
      cases h with
      | ttl h1 h => cases h; exact ⟨_, numRes_ok.2 ((parseInt_iff (by omega)).2 h1), rfl⟩
  · rw [if_neg (by decide), if_neg (by decide), if_neg (by decide), if_pos rfl]
    constructor
    · intro h
      simp only [Res.pure_eq, Res.ok.injEq] at h
      subst h
      exact .key (.nil _)
    · intro h
      cases h with
      | key h => cases h; rfl

theorem fields_nil {i j : Item} : Fields [] i j ↔ j = i := by
  constructor
  · intro h; cases h; rfl
  · rintro rfl; exact .nil _

/-! ### The scan -/

theorem scan_cons (s : Meta.HdrState) (c : UInt8) (r : Bytes) :
    Meta.hdrScan s (c :: r) = (Meta.hdrStep s c >>= fun t => Meta.hdrScan t r) := rfl

theorem scan_append (s : Meta.HdrState) (a b : Bytes) : Meta.hdrScan s (a ++ b) = (Meta.hdrScan s a >>= fun t => Meta.hdrScan t b) := by
  induction a generalizing s with
  | nil => rfl
  | cons c a ih =>
    rw [List.cons_append, scan_cons, scan_cons]
    cases h : Meta.hdrStep s c with
    | ok t => simp only [Res.bind_ok]; exact ih t
    | err e => rfl
    | panic => rfl

/-- Inside a field. -/
theorem scan_in (s t : Meta.HdrState) (h3 : s.state = 3) (hf : isField s.flagName = true) (v : Bytes) (hv : 32 ∉ v) :
    Meta.hdrScan s v = .ok t ↔ ∃ j, Fields ((cuts v).map fun u => (s.flagName, s.tok ++ u)) s.item j
      ∧ t = { s with num := s.num ++ v, tok := s.tok ++ v, item := j } := by
  induction v generalizing s t with
  | nil =>
    simp only [Meta.hdrScan, cuts, List.map_nil, fields_nil, exists_eq_left, List.append_nil, Res.ok.injEq]
    exact eq_comm
  | cons c v ih =>
    have hc : c ≠ 32 := fun h => hv (by simp [h])
    have hv' : 32 ∉ v := fun h => hv (by simp [h])
    rw [scan_cons]
    by_cases h13 : c = 13
    · subst h13
      have hs : ∀ t, Meta.hdrStep s 13 = .ok t ↔ ∃ j, Fields [(s.flagName, s.tok)] s.item j
          ∧ t = { s with num := s.num ++ [13], tok := s.tok ++ [13], item := j } := by
        intro t
        unfold Meta.hdrStep
        dsimp only
        rw [if_neg (by decide), if_pos rfl, if_pos h3, bind_ok_iff]
        refine exists_congr fun j => ?_
        rw [token_iff hf]
        simp only [Res.pure_eq, Res.ok.injEq]
        exact and_congr_right fun _ => eq_comm
      rw [bind_ok_iff]
      simp only [hs]
      have e : (cuts (13 :: v)).map (fun u => (s.flagName, s.tok ++ u))
          = [(s.flagName, s.tok)] ++ (cuts v).map (fun u => (s.flagName, (s.tok ++ [13]) ++ u)) := by
        simp [cuts, Function.comp_def]
      rw [e]
      constructor
      · rintro ⟨_, ⟨j, hj, rfl⟩, h⟩
        obtain ⟨j', h1, h2⟩ := (ih { s with num := s.num ++ [13], tok := s.tok ++ [13], item := j } t h3 hf hv').1 h
        exact ⟨j', fields_append.2 ⟨j, hj, h1⟩, by rw [h2]; simp⟩
      · rintro ⟨j', h, rfl⟩
        obtain ⟨j, h1, h2⟩ := fields_append.1 h
        exact ⟨_, ⟨j, h1, rfl⟩, (ih { s with num := s.num ++ [13], tok := s.tok ++ [13], item := j } _ h3 hf hv').2 ⟨j', h2, by simp⟩⟩
    · have hs : Meta.hdrStep s c = .ok { s with num := s.num ++ [c], tok := s.tok ++ [c] } := by
        simp [Meta.hdrStep, hc, h13, h3]
      rw [hs, Res.bind_ok, ih { s with num := s.num ++ [c], tok := s.tok ++ [c] } _ h3 hf hv']
      have e : (cuts (c :: v)).map (fun u => (s.flagName, s.tok ++ u))
          = (cuts v).map (fun u => (s.flagName, (s.tok ++ [c]) ++ u)) := by
        simp [cuts, h13, Function.comp_def]
      rw [e]
      simp

/-- State after a word, before the space. -/
def afterWord (s : Meta.HdrState) (w : Bytes) (j : Item) : Meta.HdrState :=
  match w.dropWhile (!isField ·) with
  | [] => { s with num := s.num ++ w, tok := s.tok ++ w, item := j }
  | c :: v => { s with num := s.num ++ w, tok := v, flagName := c, state := 3, item := j }

/-- The last word. -/
theorem scan_word (s t : Meta.HdrState) (h2 : s.state = 2) (w : Bytes) (hw : 32 ∉ w) :
    Meta.hdrScan s w = .ok t ↔ ∃ j, Fields (fieldsOf true w) s.item j ∧ t = afterWord s w j := by
  induction w generalizing s with
  | nil =>
    simp only [Meta.hdrScan, fieldsOf, afterWord, List.dropWhile_nil, fields_nil, exists_eq_left, List.append_nil, Res.ok.injEq]
    exact eq_comm
  | cons c w ih =>
    have hc : c ≠ 32 := fun h => hw (by simp [h])
    have hw' : 32 ∉ w := fun h => hw (by simp [h])
    rw [scan_cons]
    by_cases hf : isField c = true
    · have h4 : c = 102 ∨ c = 99 ∨ c = 116 ∨ c = 107 := by simpa [isField] using hf
      have h13 : c ≠ 13 := by rintro rfl; simp at h4
      have hs : Meta.hdrStep s c = .ok { s with num := s.num ++ [c], flagName := c, state := 3, tok := [] } := by
        simp only [Meta.hdrStep, hc, h13, if_false, h4, if_true, h2]
        rfl
      rw [hs, Res.bind_ok, scan_in _ _ (by rfl) (by exact hf) _ hw']
      simp [fieldsOf, afterWord, List.dropWhile_cons, hf]
    · have h4 : ¬ (c = 102 ∨ c = 99 ∨ c = 116 ∨ c = 107) := by simpa [isField] using hf
      have hs : Meta.hdrStep s c = .ok { s with num := s.num ++ [c], tok := s.tok ++ [c] } := by
        unfold Meta.hdrStep
        dsimp only
        rw [if_neg hc, if_neg h4, if_neg (show ¬ s.state = 3 from by omega)]
        split <;> rfl
      rw [hs, Res.bind_ok, ih { s with num := s.num ++ [c], tok := s.tok ++ [c] } h2 hw']
      have e1 : fieldsOf true (c :: w) = fieldsOf true w := by simp [fieldsOf, List.dropWhile_cons, hf]
      have e2 : ∀ j, afterWord s (c :: w) j = afterWord { s with num := s.num ++ [c], tok := s.tok ++ [c] } w j := by
        intro j
        unfold afterWord
        rw [List.dropWhile_cons, if_pos (by simpa using hf)]
        cases w.dropWhile (!isField ·) <;> simp
      rw [e1]
      simp only [e2]

/-- State after a word and a space. -/
def afterSpace (s : Meta.HdrState) (w : Bytes) (j : Item) : Meta.HdrState :=
  match w.dropWhile (!isField ·) with
  | [] => { s with num := s.num ++ w ++ [32], tok := s.tok ++ w ++ [32], item := j }
  | c :: v => { s with num := s.num ++ w ++ [32], tok := v ++ [32], flagName := c, state := 2, item := j }

theorem scan_space (s t : Meta.HdrState) (h2 : s.state = 2) (w r : Bytes) (hw : 32 ∉ w) :
    Meta.hdrScan s (w ++ 32 :: r) = .ok t
      ↔ ∃ j, Fields (fieldsOf false w) s.item j ∧ Meta.hdrScan (afterSpace s w j) r = .ok t := by
  rw [scan_append, bind_ok_iff]
  simp only [scan_word s _ h2 w hw]
  have key : ∀ j, (Meta.hdrScan (afterWord s w j) (32 :: r) = .ok t)
      ↔ ∃ j', Fields (match w.dropWhile (!isField ·) with | [] => [] | c :: v => [(c, v)]) j j'
          ∧ Meta.hdrScan (afterSpace s w j') r = .ok t := by
    intro j
    rw [scan_cons]
    unfold afterWord afterSpace
    have hd : ∀ c v, w.dropWhile (!isField ·) = c :: v → isField c = true := by
      intro c v h
      have := List.head?_dropWhile_not (fun x => !isField x) w
      rw [h] at this
      simpa using this
    cases hd' : w.dropWhile (!isField ·) with
    | nil =>
      simp only [fields_nil, exists_eq_left]
      rw [show Meta.hdrStep { s with num := s.num ++ w, tok := s.tok ++ w, item := j } 32
        = .ok { s with num := s.num ++ w ++ [32], tok := s.tok ++ w ++ [32], item := j } from by simp [Meta.hdrStep, h2], Res.bind_ok]
    | cons c v =>
      have hf := hd c v hd'
      simp only
      rw [bind_ok_iff]
      have hs : ∀ t, Meta.hdrStep { s with num := s.num ++ w, tok := v, flagName := c, state := 3, item := j } 32 = .ok t
          ↔ ∃ j', Fields [(c, v)] j j'
            ∧ t = { s with num := s.num ++ w ++ [32], tok := v ++ [32], flagName := c, state := 2, item := j' } := by
        intro t
        unfold Meta.hdrStep
        dsimp only
        rw [if_pos rfl, if_neg (by decide), if_pos rfl, bind_ok_iff]
        refine exists_congr fun j' => ?_
        rw [token_iff hf]
        simp only [Res.pure_eq, Res.ok.injEq]
        exact and_congr_right fun _ => eq_comm
      simp only [hs]
      constructor
      · rintro ⟨_, ⟨j', h1, rfl⟩, h⟩; exact ⟨j', h1, h⟩
      · rintro ⟨j', h1, h⟩; exact ⟨_, ⟨j', h1, rfl⟩, h⟩
  have e : fieldsOf false w = fieldsOf true w ++ (match w.dropWhile (!isField ·) with | [] => [] | c :: v => [(c, v)]) := by
    unfold fieldsOf
    cases w.dropWhile (!isField ·) with
    | nil => rfl
    | cons c v => simp
  rw [e]
  constructor
  · rintro ⟨_, ⟨j, h1, rfl⟩, h⟩
    obtain ⟨j', h3, h4⟩ := (key j).1 h
    exact ⟨j', fields_append.2 ⟨j, h1, h3⟩, h4⟩
  · rintro ⟨j', h, h4⟩
    obtain ⟨j, h1, h3⟩ := fields_append.1 h
    exact ⟨_, ⟨j, h1, rfl⟩, (key j).2 ⟨j', h3, h4⟩⟩

theorem afterSpace_state (s : Meta.HdrState) (w : Bytes) (j : Item) (h : s.state = 2) :
    (afterSpace s w j).state = 2 ∧ (afterSpace s w j).item = j ∧ (afterSpace s w j).size = s.size := by
  unfold afterSpace
  split <;> simp [h]

theorem afterWord_item (s : Meta.HdrState) (w : Bytes) (j : Item) :
    (afterWord s w j).item = j ∧ (afterWord s w j).size = s.size := by
  unfold afterWord
  split <;> simp

theorem scan_words (ws : List Bytes) (last : Bytes) (h : ∀ w ∈ ws ++ [last], 32 ∉ w) (s : Meta.HdrState) (h2 : s.state = 2)
    (size : Int) (item : Item) :
    (∃ t, Meta.hdrScan s (joinSp (ws ++ [last])) = .ok t ∧ t.size = size ∧ t.item = item)
      ↔ size = s.size ∧ Fields (ws.flatMap (fieldsOf false) ++ fieldsOf true last) s.item item := by
  induction ws generalizing s with
  | nil =>
    simp only [List.nil_append, List.flatMap_nil, joinSp]
    simp only [scan_word s _ h2 last (h last (by simp))]
    constructor
    · rintro ⟨_, ⟨j, h1, rfl⟩, h3, h4⟩
      obtain ⟨e1, e2⟩ := afterWord_item s last j
      exact ⟨by rw [← h3, e2], by rw [← h4, e1]; exact h1⟩
    · rintro ⟨rfl, h1⟩
      obtain ⟨e1, e2⟩ := afterWord_item s last item
      exact ⟨_, ⟨item, h1, rfl⟩, e2, e1⟩
  | cons w ws ih =>
    have e : joinSp (w :: ws ++ [last]) = w ++ 32 :: joinSp (ws ++ [last]) := by
      cases ws <;> rfl
    rw [e]
    simp only [scan_space s _ h2 w _ (h w (by simp))]
    rw [List.flatMap_cons, List.append_assoc, fields_append]
    constructor
    · rintro ⟨t, ⟨j, h1, h3⟩, h4, h5⟩
      obtain ⟨e1, e2, e3⟩ := afterSpace_state s w j h2
      obtain ⟨h6, h7⟩ := (ih (fun x hx => h x (by simp at hx ⊢; exact .inr hx)) _ e1).1 ⟨t, h3, h4, h5⟩
      exact ⟨by rw [h6, e3], j, h1, by rw [e2] at h7; exact h7⟩
    · rintro ⟨h6, j, h1, h7⟩
      obtain ⟨e1, e2, e3⟩ := afterSpace_state s w j h2
      obtain ⟨t, h3, h4, h5⟩ := (ih (fun x hx => h x (by simp at hx ⊢; exact .inr hx)) _ e1).2 ⟨by rw [h6, e3], by rw [e2]; exact h7⟩
      exact ⟨t, ⟨j, h1, h3⟩, h4, h5⟩

/-- Before the first space. -/
theorem scan_start (s : Meta.HdrState) (h1 : s.state = 1) (n : Bytes) (hn : 32 ∉ n) :
    Meta.hdrScan s n = .ok { s with num := s.num ++ n, tok := s.tok ++ n } := by
  induction n generalizing s with
  | nil => simp [Meta.hdrScan]
  | cons c n ih =>
    have hc : c ≠ 32 := fun h => hn (by simp [h])
    have hn' : 32 ∉ n := fun h => hn (by simp [h])
    have hs : Meta.hdrStep s c = .ok { s with num := s.num ++ [c], tok := s.tok ++ [c] } := by
      unfold Meta.hdrStep
      dsimp only
      rw [if_neg hc]
      simp [h1]
    rw [scan_cons]
    rw [hs, Res.bind_ok, ih { s with num := s.num ++ [c], tok := s.tok ++ [c] } h1 hn']
    simp

theorem split_body (body : Bytes) : 32 ∉ body ∨ ∃ num words last, body = joinSp (num :: words ++ [last])
    ∧ ∀ w ∈ num :: words ++ [last], 32 ∉ w := by
  have h1 := joinSp_splitSp body
  have h2 := splitSp_mem body
  match hs : splitSp body with
  | [] => exact absurd hs (splitSp_ne_nil body)
  | [w] => left; rw [hs] at h1 h2; simp only [joinSp] at h1; rw [← h1]; exact h2 w (by simp)
  | num :: w :: ws =>
    right
    have e : w :: ws = (w :: ws).dropLast ++ [(w :: ws).getLast (by simp)] := (List.dropLast_concat_getLast (by simp)).symm
    rw [hs] at h1 h2
    refine ⟨num, (w :: ws).dropLast, (w :: ws).getLast (by simp), ?_, ?_⟩
    · rw [List.cons_append, ← e, h1]
    · rw [List.cons_append, ← e]; exact h2

theorem metaHead_iff {l : Bytes} (hl : Line l) {size : Int} {item : Item} : MetaHead l size item
    ↔ b!"VA" <+: l ∧ ∃ t, Meta.hdrScan {} (l.drop 3) = .ok t ∧ t.size = size ∧ t.item = item := by
  have words : ∀ num words last, (∀ w ∈ num :: words ++ [last], 32 ∉ w) →
      ((∃ t, Meta.hdrScan {} (joinSp (num :: words ++ [last])) = .ok t ∧ t.size = size ∧ t.item = item)
        ↔ Num 32 num size ∧ Fields (words.flatMap (fieldsOf false) ++ fieldsOf true last) {} item) := by
    intro num words last hw
    have e : joinSp (num :: words ++ [last]) = num ++ 32 :: joinSp (words ++ [last]) := by cases words <;> rfl
    rw [e, scan_append, scan_start {} rfl num (hw num (by simp)), Res.bind_ok]
    have hs : ∀ t, Meta.hdrScan { num := num, tok := num } (32 :: joinSp (words ++ [last])) = .ok t
        ↔ ∃ n, Num 32 num n ∧ Meta.hdrScan { num := num ++ [32], tok := num ++ [32], size := n, state := 2 }
            (joinSp (words ++ [last])) = .ok t := by
      intro t
      rw [scan_cons]
      rw [bind_ok_iff]
      have : ∀ u, Meta.hdrStep { num := num, tok := num } 32 = .ok u
          ↔ ∃ n, Num 32 num n ∧ u = { num := num ++ [32], tok := num ++ [32], size := n, state := 2 } := by
        intro u
        unfold Meta.hdrStep
        dsimp only
        rw [if_pos rfl, if_pos rfl, bind_ok_iff]
        refine exists_congr fun n => ?_
        rw [numRes_ok, parseInt_iff (by omega)]
        simp only [Res.pure_eq, Res.ok.injEq]
        exact and_congr_right fun _ => eq_comm
      simp only [this]
      constructor
      · rintro ⟨_, ⟨n, h1, rfl⟩, h⟩; exact ⟨n, h1, h⟩
      · rintro ⟨n, h1, h⟩; exact ⟨_, ⟨n, h1, rfl⟩, h⟩
    simp only [List.nil_append]
    simp only [hs]
    have hw' : ∀ w ∈ words ++ [last], 32 ∉ w := fun w hw2 => hw w (by simp at hw2 ⊢; exact .inr hw2)
    constructor
    · rintro ⟨t, ⟨n, h1, h⟩, h3, h4⟩
      obtain ⟨h5, h6⟩ := (scan_words words last hw' _ (by rfl) size item).1 ⟨t, h, h3, h4⟩
      dsimp only at h5 h6
      subst h5
      exact ⟨h1, h6⟩
    · rintro ⟨h1, h⟩
      obtain ⟨t, h2, h3, h4⟩ := (scan_words words last hw' { num := num ++ [32], tok := num ++ [32], size := size, state := 2 }
        (by rfl) size item).2 ⟨rfl, h⟩
      exact ⟨t, ⟨size, h1, h2⟩, h3, h4⟩
  constructor
  · rintro ⟨a, body, rfl, h⟩
    refine ⟨by simp, ?_⟩
    rw [show (b!"VA" ++ a :: body).drop 3 = body from by simp]
    rcases h with ⟨h1, rfl, rfl⟩ | ⟨num, ws, last, rfl, hw, hn, hf⟩
    · rw [scan_start {} rfl body h1]; exact ⟨_, rfl, rfl, rfl⟩
    · exact (words num ws last hw).2 ⟨hn, hf⟩
  · rintro ⟨hp, h⟩
    have h3 := va_len hl hp
    obtain ⟨t, rfl⟩ := hp
    cases t with
    | nil => simp at h3
    | cons a body =>
      rw [show (b!"VA" ++ a :: body).drop 3 = body from by simp] at h
      refine ⟨a, body, rfl, ?_⟩
      rcases split_body body with h1 | ⟨num, ws, last, rfl, hw⟩
      · left
        rw [scan_start {} rfl body h1] at h
        obtain ⟨t, h4, h5, h6⟩ := h
        simp only [Res.ok.injEq] at h4
        subst h4
        exact ⟨h1, h5.symm, h6.symm⟩
      · right
        obtain ⟨h4, h5⟩ := (words num ws last hw).1 h
        exact ⟨num, ws, last, rfl, hw, h4, h5⟩

theorem metaHead_size {l : Bytes} {size : Int} {item : Item} (h : MetaHead l size item) : size < 2 ^ 31 := by
  obtain ⟨a, body, rfl, ⟨_, rfl, _⟩ | ⟨_, _, _, _, _, hn, _⟩⟩ := h
  · omega
  · have := hn.2; unfold InRange at this; omega

/-! ### Get -/

theorem metaBlock_iff {i r : Bytes} {item : Item} : Meta.parseGetResponse i = (.ok item, r)
    ↔ ∃ b, MetaBlock b item ∧ i = b ++ r := by
  constructor
  · intro h
    obtain ⟨hdr, pad, st, rfl, h1, h2, h3, h4, h5, h6, h7⟩ := meta_parse_ok i r item h
    refine ⟨hdr ++ item.value ++ pad, ?_, rfl⟩
    have := MetaBlock.mk h1 h2 ((metaHead_iff h1).2 ⟨h4, st, h5, h6, rfl⟩) h3
    rw [h7]
    exact this
  · rintro ⟨b, hb, rfl⟩
    cases hb with
    | @mk hdr value pad item hl hlen hh hp =>
      have hm : maxAlloc = 281474976710656 := by unfold maxAlloc; decide
      have hsz := metaHead_size hh
      obtain ⟨hva, t, ht, hs, rfl⟩ := (metaHead_iff hl).1 hh
      unfold Meta.parseGetResponse
      have hlen3 := va_len hl hva
      have hd : sliceFrom hdr 3 = .ok (hdr.drop 3) :=
        sliceFrom_ok.2 ⟨hdr.take 3, (List.take_append_drop 3 hdr).symm, by rw [List.length_take]; omega⟩
      have hr : Reply (hdr ++ value ++ pad ++ r) hdr (value ++ pad ++ r) := ⟨by simp, hl, hlen⟩
      rw [Rd.bind_of_ok (readSlice_iff.2 hr), Rd.ite_apply', if_neg, Rd.ite_apply', if_neg, Rd.ite_apply', if_neg, hd,
        Rd.bind_of_ok (Rd.lift_apply _ _), ht, Rd.bind_of_ok (Rd.lift_apply _ _)]
      · refine n_ok_iff.2 ⟨value ++ pad, r, rfl, by rw [hs, List.length_append, hp]; rfl, by rw [List.length_append]; omega, ?_⟩
        exact lift_ok_iff.2 ⟨value, sliceTo_ok.2 ⟨pad, rfl, hs.symm⟩, rfl⟩
      · have : hasPrefix hdr b!"VA" = true := List.isPrefixOf_iff_prefix.2 hva
        simp [this]
      · rintro rfl; simp [Meta.msgNoop] at hva
      · rintro rfl; simp [Meta.msgEnd] at hva

/-- **C70**, meta Get: it returns an item exactly for one block, and gives it the key that was asked for. -/
theorem C70_meta_get (k i r : Bytes) (item : Item) : (Meta.get k).rd i = (.ok item, r)
    ↔ ∃ b it, MetaBlock b it ∧ i = b ++ r ∧ item = { it with key := k } := by
  show (Meta.parseGetResponse >>= _) i = _ ↔ _
  rw [Rd.bind_apply]
  constructor
  · intro h
    cases hq : Meta.parseGetResponse i with
    | mk x r' =>
      rw [hq] at h
      cases x with
      | err e => simp at h
      | panic => simp at h
      | ok it =>
        simp only [Rd.pure_apply, Prod.mk.injEq, Res.ok.injEq] at h
        obtain ⟨rfl, rfl⟩ := h
        obtain ⟨b, h1, h2⟩ := metaBlock_iff.1 hq
        exact ⟨b, it, h1, h2, rfl⟩
  · rintro ⟨b, it, h1, h2, rfl⟩
    rw [metaBlock_iff.2 ⟨b, h1, h2⟩]
    rfl

/-- **C70**, meta Get: it panics exactly when the size is negative (for -1 one more byte has to come). -/
theorem C70_meta_get_panics (k i : Bytes) : Panics (Meta.get k) i
    ↔ ∃ hdr s size item, Reply i hdr s ∧ MetaHead hdr size item ∧ (size < -1 ∨ (size = -1 ∧ s ≠ [])) := by
  rw [C51_meta_get]
  constructor
  · rintro ⟨l, s, hl, hva, num, toks, n, h1, h2, h3, h4, h5⟩
    cases hst : Meta.hdrScan {} (l.drop 3) with
    | err e => rw [hst] at h5; simp [Res.isOk] at h5
    | panic => rw [hst] at h5; simp [Res.isOk] at h5
    | ok st =>
      have hsz : st.size = n := by
        rcases hdrScan_value hst with ⟨h0, _⟩ | ⟨num', toks', e1, e2, e3⟩
        · rw [h1] at h0; simp at h0
        · rw [h1] at e1
          have := congrArg splitSp e1
          rw [splitSp_append _ _ h2, splitSp_append _ _ e2] at this
          simp only [List.cons.injEq] at this
          rw [this.1, e3] at h3
          simpa using h3
      exact ⟨l, s, st.size, st.item, hl, (metaHead_iff hl.2.1).2 ⟨hva, st, hst, rfl, rfl⟩, by rw [hsz]; exact h4⟩
  · rintro ⟨l, s, size, item, hl, hh, h4⟩
    obtain ⟨hva, st, hst, rfl, rfl⟩ := (metaHead_iff hl.2.1).1 hh
    refine ⟨l, s, hl, hva, ?_⟩
    rcases hdrScan_value hst with ⟨_, h0⟩ | ⟨num, toks, e1, e2, e3⟩
    · rw [h0] at h4; omega
    · exact ⟨num, toks, st.size, e1, e2, e3, h4, by rw [hst]; rfl⟩

/-! ### GetMulti -/

theorem hdrScan_notFound (st : Meta.HdrState) (b : Bytes) : Meta.hdrScan st b ≠ .err .itemNotFound := by
  have ht : ∀ c v it, Meta.readGetFlagToken c v it ≠ .err .itemNotFound := by
    intro c v it
    unfold Meta.readGetFlagToken
    split
    · exact bind_ne (numRes_ne _ (by decide)) (fun _ h => by cases h)
    split
    · exact bind_ne (numRes_ne _ (by decide)) (fun _ h => by cases h)
    split
    · exact bind_ne (numRes_ne _ (by decide)) (fun _ h => by cases h)
    split <;> (intro h; cases h)
  have hs : ∀ st c, Meta.hdrStep st c ≠ .err .itemNotFound := by
    intro st c
    unfold Meta.hdrStep
    dsimp only
    split
    · split
      · exact bind_ne (numRes_ne _ (by decide)) (fun _ h => by cases h)
      split
      · exact bind_ne (ht _ _ _) (fun _ h => by cases h)
      · intro h; cases h
    split
    · split
      · exact bind_ne (ht _ _ _) (fun _ h => by cases h)
      · intro h; cases h
    split
    · split <;> (intro h; cases h)
    · intro h; cases h
  induction b generalizing st with
  | nil => intro h; cases h
  | cons c r ih => exact bind_ne (hs st c) fun st' => ih st'

theorem body_notFound (st : Meta.HdrState) : Never .itemNotFound (readN (st.size + 2) >>= fun buf =>
    Rd.lift (sliceTo buf st.size) >>= fun v => (pure { st.item with value := v } : Rd Item)) :=
  (never_readN (by decide) _).bind fun _ => (never_lift (sliceTo_ne _ _ _)).bind fun _ => never_pure _ _

theorem meta_parse_none {i r : Bytes} : Meta.parseGetResponse i = (.err .itemNotFound, r)
    ↔ i = b!"EN\r\n" ++ r ∨ i = b!"MN\r\n" ++ r := by
  have back : ∀ m : Bytes, m = b!"EN\r\n" ∨ m = b!"MN\r\n" → Meta.parseGetResponse (m ++ r) = (.err .itemNotFound, r) := by
    intro m hm
    have hr : Reply (m ++ r) m r := by
      rcases hm with rfl | rfl
      · exact ⟨rfl, ⟨b!"EN\r", rfl, by decide⟩, by decide⟩
      · exact ⟨rfl, ⟨b!"MN\r", rfl, by decide⟩, by decide⟩
    unfold Meta.parseGetResponse
    rw [Rd.bind_of_ok (readSlice_iff.2 hr)]
    rcases hm with rfl | rfl
    · rw [Rd.ite_apply', if_pos (by rfl)]; rfl
    · rw [Rd.ite_apply', if_neg (by decide), Rd.ite_apply', if_pos (by rfl)]; rfl
  constructor
  · intro h
    have h' : (readSlice >>= _) i = (Res.err .itemNotFound, r) := h
    obtain ⟨l, s, ⟨rfl, hl, hlen⟩, he⟩ := (line_iff (by simp)).1 h'
    simp only [Rd.ite_apply', Rd.fail_apply] at he
    split at he
    · rename_i h1
      simp only [Prod.mk.injEq, true_and] at he
      subst he h1
      exact .inl rfl
    · split at he
      · rename_i h1
        simp only [Prod.mk.injEq, true_and] at he
        subst he h1
        exact .inr rfl
      · exfalso
        split at he
        · simp at he
        · rw [Rd.bind_apply] at he
          cases h1 : sliceFrom l 3 with
          | err e => unfold sliceFrom at h1; split at h1 <;> simp at h1
          | panic => rw [h1] at he; simp at he
          | ok body =>
            rw [h1] at he
            simp only [Rd.lift_apply] at he
            rw [Rd.bind_apply] at he
            cases h2 : Meta.hdrScan {} body with
            | err e =>
              rw [h2] at he
              simp only [Rd.lift_apply, Prod.mk.injEq, Res.err.injEq] at he
              exact hdrScan_notFound _ _ (by rw [h2, he.1])
            | panic => rw [h2] at he; simp at he
            | ok st =>
              rw [h2] at he
              simp only [Rd.lift_apply] at he
              exact body_notFound st s (by rw [he])
  · rintro (rfl | rfl)
    · exact back _ (.inl rfl)
    · exact back _ (.inr rfl)

theorem metaLoop_ok {n : Nat} {acc l : List Item} {i r : Bytes} (hn : i.length < n) :
    Meta.multiLoop n acc i = (.ok l, r)
      ↔ ∃ b items, Blocks MetaBlock b items ∧ (i = b ++ b!"EN\r\n" ++ r ∨ i = b ++ b!"MN\r\n" ++ r) ∧ l = acc ++ items := by
  induction n generalizing acc i with
  | zero => omega
  | succ n ih =>
    unfold Meta.multiLoop
    constructor
    · intro h
      cases hp : Meta.parseGetResponse i with
      | mk x s =>
        rw [hp] at h
        cases x with
        | panic => simp at h
        | err e =>
          by_cases he : e = .itemNotFound
          · subst he
            simp only [Prod.mk.injEq, Res.ok.injEq] at h
            obtain ⟨rfl, rfl⟩ := h
            refine ⟨[], [], .nil, ?_, by simp⟩
            simpa using meta_parse_none.1 hp
          · exfalso
            revert h
            cases e <;> first | exact fun h => he rfl | (intro h; cases h)
        | ok item =>
          simp only at h
          have hlt := meta_parse_lt hp
          obtain ⟨b, hb, rfl⟩ := metaBlock_iff.1 hp
          obtain ⟨b', items, hbs, hs, rfl⟩ := (ih (by omega)).1 h
          refine ⟨b ++ b', item :: items, .cons hb hbs, ?_, by simp⟩
          rcases hs with rfl | rfl
          · exact .inl (by simp)
          · exact .inr (by simp)
    · rintro ⟨b, items, hbs, hi, rfl⟩
      cases hbs with
      | nil =>
        rw [meta_parse_none.2 (by simpa using hi)]
        simp
      | @cons b i' item items' hb hbs =>
        obtain ⟨s, hs, hi'⟩ : ∃ s, i = b ++ s ∧ (s = i' ++ b!"EN\r\n" ++ r ∨ s = i' ++ b!"MN\r\n" ++ r) := by
          rcases hi with rfl | rfl
          · exact ⟨_, by simp, .inl rfl⟩
          · exact ⟨_, by simp, .inr rfl⟩
        have hp := metaBlock_iff.2 ⟨b, hb, hs⟩
        have hlt := meta_parse_lt hp
        rw [hp]
        simp only
        exact (ih (by omega)).2 ⟨i', items', hbs, hi', by simp⟩

/-- **C70**, meta GetMulti: it returns items exactly for blocks followed by `EN` or `MN`, one item per block; what
comes after the first `EN` is left in the connection. -/
theorem C70_meta_getMulti (ks : List Bytes) (i r : Bytes) (items : List Item) : (Meta.getMulti ks).rd i = (.ok items, r)
    ↔ ∃ b, Blocks MetaBlock b items ∧ (i = b ++ b!"EN\r\n" ++ r ∨ i = b ++ b!"MN\r\n" ++ r) := by
  show Meta.multiLoop (i.length + 1) [] i = _ ↔ _
  rw [metaLoop_ok (by omega)]
  constructor
  · rintro ⟨b, its, h1, h2, rfl⟩; exact ⟨b, by simpa using h1, h2⟩
  · rintro ⟨b, h1, h2⟩; exact ⟨b, items, h1, h2, by simp⟩

/-! ### What is accepted that should not be -/

/-- **C70**: a `VA` line without a further space is a value of size 0, whatever else stands on it, so the announced
number of bytes is taken for the next replies. -/
theorem C70_meta_no_space (k junk r : Bytes) (a b c : UInt8) (h32 : 32 ∉ junk) (h10 : 10 ∉ junk) (ha : a ≠ 10)
    (hl : junk.length ≤ 4000) :
    (Meta.get k).rd (b!"VA" ++ a :: junk ++ b!"\n" ++ [b, c] ++ r) = (.ok { key := k }, r) := by
  refine (C70_meta_get k _ r _).2 ⟨_, {}, .mk (hdr := b!"VA" ++ a :: junk ++ b!"\n") (value := []) (pad := [b, c]) (item := {})
    ?_ ?_ ⟨a, junk ++ b!"\n", by simp, .inl ⟨by simp [h32], rfl, rfl⟩⟩ rfl, by simp, rfl⟩
  · refine ⟨b!"VA" ++ a :: junk, rfl, ?_⟩
    simp [h10, ha.symm]
  · simp; omega

/-- **C70**: a negative size makes meta Get panic, whatever follows. -/
theorem C70_meta_negative (k rest : Bytes) (n : Nat) (hn : 2 ≤ n) (hn' : n ≤ 2 ^ 31) :
    Panics (Meta.get k) (b!"VA -" ++ natDec n ++ b!" \r\n" ++ rest) := by
  have hd : Digits (natDec n) n := (parseUint_iff.1 (parseUint_natDec n 64 (by omega))).1
  have hz : Num 32 (45 :: natDec n) (-n) := ⟨.minus hd, by unfold InRange; omega⟩
  refine (C70_meta_get_panics k _).2 ⟨b!"VA -" ++ natDec n ++ b!" \r\n", rest, -n, {}, ⟨rfl, ?_, ?_⟩, ?_, .inl (by omega)⟩
  · refine ⟨b!"VA -" ++ natDec n ++ b!" \r", by simp, ?_⟩
    simp [natDec_no10]
  · have h2 := natDec_length64 n (by omega)
    simp; omega
  · refine ⟨32, 45 :: natDec n ++ b!" \r\n", by simp, .inr ⟨45 :: natDec n, [], b!"\r\n", rfl, ?_, hz, ?_⟩⟩
    · intro w hw
      simp at hw
      rcases hw with rfl | rfl
      · have := natDec_no32 n
        simp [this]
      · decide
    · exact .nil _

/-- A concrete reply with repeated and unknown fields: the last `f` wins, `xc7` is read from its first field letter on. -/
example : (Meta.get b!"k").rd b!"VA 2 f1 xc7 f3 \r\nhixxrest"
    = (.ok { key := b!"k", value := b!"hi", flags := some [0, 0, 0, 3], cas := 7 }, b!"rest") := by decide +kernel

example : MetaHead b!"VA 2 f1 xc7 f3 \r\n" 2 { flags := some (putBE 4 (toUnsigned 32 3)), cas := toUnsigned 64 7 } := by
  refine ⟨32, b!"2 f1 xc7 f3 \r\n", rfl, .inr ⟨b!"2", [b!"f1", b!"xc7", b!"f3"], b!"\r\n", rfl, by decide, ?_, ?_⟩⟩
  · exact (parseInt_iff (by omega)).1 (by decide +kernel)
  · exact .flags (n := 1) ((parseInt_iff (by omega)).1 (by decide +kernel)) (.cas (n := 7) ((parseInt_iff (by omega)).1 (by decide +kernel))
      (.flags (n := 3) ((parseInt_iff (by omega)).1 (by decide +kernel)) (.nil _)))

end Props
end Verif
