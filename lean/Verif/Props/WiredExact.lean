import Verif.Props.WiredBreakUse
import Verif.Props.RewiredPool
/-!
C85 and C86: a counter and a lock when all methods have returned and none of them with a connection error.
-/

namespace Verif
namespace Wired
open Kv Spec Mc Pool Cluster Props

variable {S : Type} [DecidableEq S] {H : Hashes} {name : S → Bytes} {r : Ring S} {p : Bytes → S} {proc : Nat → Nat}
  {does : World S → Op → Res Out × World S} {errs : Err → Prop}

theorem finishes_append {M : Type} (l m : List (Ev M)) : Spec.Wired.finishes (l ++ m) = Spec.Wired.finishes l ++ Spec.Wired.finishes m := by
  induction l with
  | nil => rfl
  | cons x l ih => cases x <;> simp [Spec.Wired.finishes, ih]

theorem mem_finishes {M : Type} {l : List (Ev M)} {i : Nat} {r : Res Out} : (i, r) ∈ Spec.Wired.finishes l ↔ .finish i r ∈ l := by
  induction l with
  | nil => simp [Spec.Wired.finishes]
  | cons x l ih =>
    cases x with
    | finish j q => simp [Spec.Wired.finishes, ih]
    | _ => simp [Spec.Wired.finishes, ih]

/-- Every method that was called has returned or is in progress. -/
theorem loose_balance {w : World S} {l : List (Deed S Op)} {z : Frail S} (h : LooseRun does errs (Frail.start w) l z) :
    ∃ ws : List Nat, (∀ i ∈ ws, z.calls i ≠ none)
      ∧ (Spec.Wired.starts (seenOf l)).length = (Spec.Wired.finishes (seenOf l)).length + ws.length ∧ ws.Nodup ∧ ∀ i, z.calls i ≠ none → i ∈ ws := by
  induction h with
  | nil => exact ⟨[], nofun, rfl, .nil, fun i h => absurd rfl h⟩
  | @snoc l d z z' _ hs ih =>
    obtain ⟨ws, h1, h2, h3, h4⟩ := ih
    rw [seenOf_append, starts_append, finishes_append, List.length_append, List.length_append]
    -- somebody in progress stays so
    have same : ∀ {i : Nat} {v y : Op × Option (Res Out)}, z.calls i = some y →
        (∀ j ∈ ws, (if j = i then some v else z.calls j) ≠ none) ∧ ∀ j, (if j = i then some v else z.calls j) ≠ none → j ∈ ws := by
      intro i v y hi
      refine ⟨fun j hj => ?_, fun j hj => ?_⟩
      · by_cases e : j = i
        · rw [if_pos e]; exact nofun
        · rw [if_neg e]; exact h1 j hj
      · by_cases e : j = i
        · rw [e]; exact h4 i (by rw [hi]; exact nofun)
        · rw [if_neg e] at hj; exact h4 j hj
    cases hs with
    | tick d => exact ⟨ws, h1, h2, h3, h4⟩
    | breaks d br g1 g2 => rw [g1]; exact ⟨ws, h1, h2, h3, h4⟩
    | late => exact ⟨ws, h1, h2, h3, h4⟩
    | run i o g1 => exact ⟨ws, (same g1).1, h2, h3, (same g1).2⟩
    | lose i o x e g1 _ => exact ⟨ws, (same g1).1, h2, h3, (same g1).2⟩
    | fail i q s o e g1 _ => exact ⟨ws, (same g1).1, h2, h3, (same g1).2⟩
    | start i o g1 =>
      refine ⟨i :: ws, fun j hj => ?_, ?_, List.nodup_cons.2 ⟨fun hi => h1 i hi g1, h3⟩, fun j hj => ?_⟩
      · show (if j = i then some (o, none) else z.calls j) ≠ none
        by_cases e : j = i
        · rw [if_pos e]; exact nofun
        · rw [if_neg e]; exact h1 j ((List.mem_cons.1 hj).resolve_left e)
      · show _ + 1 = _ + 0 + (ws.length + 1)
        omega
      · have hj : (if j = i then some (o, none) else z.calls j) ≠ none := hj
        by_cases e : j = i
        · rw [e]; exact .head _
        · rw [if_neg e] at hj; exact .tail _ (h4 j hj)
    | finish i o x g1 =>
      have hm : i ∈ ws := h4 i (by rw [g1]; exact nofun)
      refine ⟨ws.erase i, fun j hj => ?_, ?_, h3.erase i, fun j hj => ?_⟩
      · obtain ⟨e, hj⟩ := (h3.mem_erase_iff).1 hj
        show (if j = i then none else z.calls j) ≠ none
        rw [if_neg e]; exact h1 j hj
      · show _ + 0 = _ + 1 + _
        rw [List.length_erase_of_mem hm]
        have := List.length_pos_of_mem hm
        omega
      · have hj : (if j = i then none else z.calls j) ≠ none := hj
        by_cases e : j = i
        · rw [if_pos e] at hj; exact absurd rfl hj
        · rw [if_neg e] at hj; exact (h3.mem_erase_iff).2 ⟨e, h4 j hj⟩

theorem loose_back {w : World S} {l : List (Deed S Op)} {z : Frail S} (h : LooseRun does errs (Frail.start w) l z) (hb : ∀ i, z.calls i = none) :
    (Spec.Wired.starts (seenOf l)).length = (Spec.Wired.finishes (seenOf l)).length := by
  obtain ⟨ws, h1, h2, -⟩ := loose_balance h
  cases ws with
  | nil => exact h2
  | cons i ws => exact absurd (hb i) (h1 i (.head _))

theorem numbers_length {M : Type} {tr : List (Ev M)} (h : ∀ i r, .finish i r ∈ tr → ∃ v, r = .ok (.num v)) :
    (Spec.Wired.numbers tr).length = (Spec.Wired.finishes tr).length := by
  induction tr with
  | nil => rfl
  | cons x l ih =>
    have ih := ih fun i r hi => h i r (.tail _ hi)
    cases x with
    | finish i r =>
      obtain ⟨v, rfl⟩ := h i r (.head _)
      simp [Spec.Wired.numbers, Spec.Wired.finishes, ih]
    | _ => simpa [Spec.Wired.numbers, Spec.Wired.finishes] using ih

/-- Different numbers from `m + 1` to `m + n`, `n` of them, are all of these. -/
theorem all_numbers {l : List Int} {m n : Nat} (hn : l.Nodup) (h : ∀ v ∈ l, (m : Int) < v ∧ v ≤ (m + n : Nat)) (hl : l.length = n) (v : Int) :
    v ∈ l ↔ (m : Int) < v ∧ v ≤ (m + n : Nat) := by
  refine ⟨h v, fun hv => Classical.byContradiction fun hv' => ?_⟩
  have := few_numbers (l := v :: l) (m := m) (n := n) (List.nodup_cons.2 ⟨hv', hn⟩) fun u hu => by
    rcases List.mem_cons.1 hu with rfl | hu
    · exact hv
    · exact h u hu
  rw [List.length_cons] at this
  omega

section
variable {U : Setup S Op} {w : World S} {tr : List (Ev Op)} {x : State S}

/-- **C85**, a counter that nobody failed to reach: when all the goroutines of all the processes have returned from adding
one to a counter and none got a connection error, the counter is exactly what it was plus the calls, and the numbers that
they were given are exactly those in between, each given once - whatever connections broke meanwhile. -/
theorem C85_counter_exact (c : FrailUse U H name r p w tr x) {k : Bytes} {e : Entry} {m : Nat} (he : (w (p k)).data k = some e) (hx : e.expiry = none)
    (hm : counterOf e.value = some m) (hops : ∀ i o, (i, o) ∈ Spec.Wired.starts tr → ∃ e, o = .increment k 1 e)
    (hb : m + (Spec.Wired.starts tr).length < 2 ^ 63) (hback : ∀ i, x.prog i = none) (hio : ∀ i, .finish i (.err .io) ∉ tr) :
    (∃ e', (x.world (p k)).find k = some e' ∧ counterOf e'.value = some (m + (Spec.Wired.starts tr).length))
      ∧ (Spec.Wired.numbers tr).Nodup
      ∧ ∀ v : Int, v ∈ Spec.Wired.numbers tr ↔ (m : Int) < v ∧ v ≤ (m + (Spec.Wired.starts tr).length : Nat) := by
  obtain ⟨e', v, h1, h2, h3, h4, h5, h6, h7⟩ := C85_counter c he hx hm hops hb
  obtain ⟨l, z, g1, g2, -, -, -, g6⟩ := C85_pool c
  have hl := loose_back (loose_run g1) fun i => (g6 i).2 (hback i)
  rw [g2, ← numbers_length fun i r hi => (h7 i r hi).resolve_left fun h => hio i (h ▸ hi)] at hl
  have hv : v = m + (Spec.Wired.starts tr).length := by omega
  subst hv
  exact ⟨⟨e', h1, h2⟩, h5, all_numbers h5 h6 hl.symm⟩
end

/-! ### A lock -/

/-- Somebody has got, or is about to get, an error. -/
def Unlucky (errs : Err → Prop) (tr : List (Ev Op)) (z : Frail S) : Prop :=
  (∃ i o e, errs e ∧ z.calls i = some (o, some (.err e))) ∨ ∃ i e, errs e ∧ .finish i (.err e) ∈ tr

/-- Somebody has succeeded, or is about to. -/
def Lucky (tr : List (Ev Op)) (z : Frail S) : Prop := Spec.Wired.winners tr ≠ [] ∨ ∃ i o, z.calls i = some (o, some (.ok .done))

/-- Nothing has been carried out. -/
structure Unlocked (p : Bytes → S) (k : Bytes) (tr : List (Ev Op)) (z : Frail S) : Prop where
  free : (z.world (p k)).find k = none
  none : z.adrift = []
  waits : ∀ i o r, z.calls i ≠ some (o, some r)
  quiet : ∀ i r, .finish i r ∉ tr

theorem tick_none {s : Store} {k : Bytes} (d : Nat) (h : s.find k = none) : (s.tick d).find k = none := by
  unfold Store.find at h ⊢
  show (match s.data k with | some e => if e.live (s.now + d) then some e else none | none => none) = none
  cases he : s.data k with
  | none => rfl
  | some e =>
    rw [he] at h
    dsimp only at h ⊢
    unfold Entry.live at h ⊢
    cases hx : e.expiry with
    | none => rw [hx] at h; simp at h
    | some t =>
      rw [hx] at h
      simp at h ⊢
      omega

theorem unlocked {w : World S} {k : Bytes} (hd : Locks p does) (h0 : (w (p k)).find k = none) {l : List (Deed S Op)} {z : Frail S}
    (h : LooseRun does errs (Frail.start w) l z)
    (hops : ∀ i o, (i, o) ∈ Spec.Wired.starts (seenOf l) → ∃ it : Item, o = .add it ∧ it.key = k ∧ it.expiration = 0) :
    Unlucky errs (seenOf l) z ∨ Lucky (seenOf l) z ∨ Unlocked p k (seenOf l) z := by
  induction h with
  | nil => exact .inr (.inr ⟨h0, rfl, nofun, nofun⟩)
  | @snoc l d z z' hl hs ih =>
    have hops' : ∀ i o, (i, o) ∈ Spec.Wired.starts (seenOf l) → ∃ it : Item, o = .add it ∧ it.key = k ∧ it.expiration = 0 := fun i o hi =>
      hops i o (by rw [seenOf_append, starts_append]; exact List.mem_append_left _ hi)
    have ih := ih hops'
    have t := locking hd hl hops'
    rw [seenOf_append]
    rcases ih with (⟨i, o, x, hx, g⟩ | ⟨i, x, hx, g⟩) | (g | ⟨i, o, g⟩) | g
    · -- somebody is about to get an error
      refine .inl ?_
      have keep : ∀ {j : Nat} {v : Option (Op × Option (Res Out))}, (j = i → v = some (o, some (.err x))) →
          (if i = j then v else z.calls i) = some (o, some (.err x)) := by
        intro j v hv
        by_cases e : i = j
        · rw [if_pos e]; exact hv e.symm
        · rw [if_neg e]; exact g
      cases hs with
      | tick | late => exact .inl ⟨i, o, x, hx, g⟩
      | breaks => exact .inl ⟨i, o, x, hx, g⟩
      | start j o' g1 => exact .inl ⟨i, o, x, hx, keep fun e => (by rw [e, g] at g1; cases g1)⟩
      | run j o' g1 => exact .inl ⟨i, o, x, hx, keep fun e => (by rw [e, g] at g1; cases g1)⟩
      | fail j _ _ o' y g1 _ => exact .inl ⟨i, o, x, hx, keep fun e => (by rw [e, g] at g1; cases g1)⟩
      | lose j o' r y g1 g2 =>
        by_cases e : j = i
        · rw [e, g] at g1
          cases g1
          exact .inl ⟨i, o, y, g2, if_pos e.symm⟩
        · exact .inl ⟨i, o, x, hx, keep fun e' => absurd e' e⟩
      | finish j o' r g1 =>
        by_cases e : j = i
        · rw [e, g] at g1
          cases g1
          rw [e]
          exact .inr ⟨i, x, hx, List.mem_append_right _ (.head _)⟩
        · exact .inl ⟨i, o, x, hx, keep fun e' => absurd e' e⟩
    · exact .inl (.inr ⟨i, x, hx, List.mem_append_left _ g⟩)
    · refine .inr (.inl (.inl fun h => g ?_))
      rw [winners_append, List.append_eq_nil_iff] at h
      exact h.1
    · -- somebody is about to succeed
      have keep : ∀ {j : Nat} {v : Option (Op × Option (Res Out))}, j ≠ i →
          (if i = j then v else z.calls i) = some (o, some (.ok .done)) := fun e => by rw [if_neg fun h => e h.symm]; exact g
      cases hs with
      | tick | late => exact .inr (.inl (.inr ⟨i, o, g⟩))
      | breaks => exact .inr (.inl (.inr ⟨i, o, g⟩))
      | start j o' g1 => exact .inr (.inl (.inr ⟨i, o, keep fun e => (by rw [e, g] at g1; cases g1)⟩))
      | run j o' g1 => exact .inr (.inl (.inr ⟨i, o, keep fun e => (by rw [e, g] at g1; cases g1)⟩))
      | fail j _ _ o' y g1 _ => exact .inr (.inl (.inr ⟨i, o, keep fun e => (by rw [e, g] at g1; cases g1)⟩))
      | lose j o' r y g1 g2 => exact .inl (.inl ⟨j, o', y, g2, if_pos rfl⟩)
      | finish j o' r g1 =>
        by_cases e : j = i
        · rw [e, g] at g1
          cases g1
          refine .inr (.inl (.inl fun h => ?_))
          rw [winners_append, List.append_eq_nil_iff] at h
          cases h.2
        · exact .inr (.inl (.inr ⟨i, o, keep e⟩))
    · -- nothing has been carried out
      cases hs with
      | tick d =>
        refine .inr (.inr ⟨tick_none d g.free, g.none, g.waits, fun i r hi => ?_⟩)
        rcases List.mem_append.1 hi with hi | hi
        · exact g.quiet i r hi
        · simp [seenOf] at hi
      | breaks d br g1 g2 => rw [g1, List.append_nil]; exact .inr (.inr ⟨g.free, g.none, g.waits, g.quiet⟩)
      | late q s o l1 l2 g1 => rw [g.none] at g1; simp at g1
      | lose i o r _ g1 _ => exact absurd g1 (g.waits i o r)
      | finish i o r g1 => exact absurd g1 (g.waits i o r)
      | fail i q s o y g1 g2 => exact .inl (.inl ⟨i, o, y, g2, if_pos rfl⟩)
      | start i o g1 =>
        refine .inr (.inr ⟨g.free, g.none, fun j o' r hj => ?_, fun j r hj => ?_⟩)
        · have hj : (if j = i then some (o, Option.none) else z.calls j) = some (o', some r) := hj
          by_cases e : j = i
          · rw [if_pos e] at hj; cases hj
          · rw [if_neg e] at hj; exact g.waits j o' r hj
        · rcases List.mem_append.1 hj with hj | hj
          · exact g.quiet j r hj
          · simp [seenOf] at hj
      | run i o g1 =>
        obtain ⟨it, rfl, hk, h0⟩ := t.ops i o Option.none g1
        refine .inr (.inl (.inr ⟨i, .add it, ?_⟩))
        show (if i = i then some (Spec.Op.add it, some (does z.world (.add it)).1) else z.calls i) = _
        rw [if_pos rfl, (hd z.world it h0).2.2 (by rw [hk]; exact g.free)]

theorem no_finishes {M : Type} {tr : List (Ev M)} (h : ∀ i r, .finish i r ∉ tr) : Spec.Wired.finishes tr = [] := by
  cases hf : Spec.Wired.finishes tr with
  | nil => rfl
  | cons a l => exact absurd ((mem_finishes (i := a.1) (r := a.2)).1 (by rw [hf]; exact .head _)) (h _ _)

/-- When all are back, none with an error, somebody has won. -/
theorem somebody_won {w : World S} {k : Bytes} (hd : Locks p does) (h0 : (w (p k)).find k = none) {l : List (Deed S Op)} {z : Frail S}
    (h : LooseRun does errs (Frail.start w) l z)
    (hops : ∀ i o, (i, o) ∈ Spec.Wired.starts (seenOf l) → ∃ it : Item, o = .add it ∧ it.key = k ∧ it.expiration = 0)
    (hs : Spec.Wired.starts (seenOf l) ≠ []) (hb : ∀ i, z.calls i = none) (hio : ∀ i e, errs e → .finish i (.err e) ∉ seenOf l) :
    Spec.Wired.winners (seenOf l) ≠ [] := by
  rcases unlocked hd h0 h hops with (⟨i, o, x, -, g⟩ | ⟨i, x, hx, g⟩) | (g | ⟨i, o, g⟩) | g
  · rw [hb i] at g; cases g
  · exact absurd g (hio i x hx)
  · exact g
  · rw [hb i] at g; cases g
  · have := loose_back h hb
    rw [no_finishes g.quiet] at this
    exact absurd (List.length_eq_zero_iff.1 this) hs

section
variable {U : Setup S Op} {w : World S} {tr : List (Ev Op)} {x : State S}

/-- **C85**, a lock that somebody holds: when all the goroutines of all the processes that tried to `Add` a key that was
not there have returned, and none got a connection error, exactly one of them was told that it succeeded - whatever
connections broke meanwhile. -/
theorem C85_lock_won (c : FrailUse U H name r p w tr x) {k : Bytes} (h0 : (w (p k)).find k = none)
    (hops : ∀ i o, (i, o) ∈ Spec.Wired.starts tr → ∃ it : Item, o = .add it ∧ it.key = k ∧ it.expiration = 0)
    (hs : Spec.Wired.starts tr ≠ []) (hback : ∀ i, x.prog i = none) (hio : ∀ i, .finish i (.err .io) ∉ tr) :
    (Spec.Wired.winners tr).length = 1 := by
  obtain ⟨l, z, h1, h2, -, -, -, h6⟩ := C85_pool c
  have hw := somebody_won locks_text h0 (loose_run h1) (by rw [h2]; exact hops) (by rw [h2]; exact hs) (fun i => (h6 i).2 (hback i))
    (by rw [h2]; exact fun i e he => he ▸ hio i)
  rw [h2] at hw
  have := (C85_lock c hops).1
  have := List.length_pos_iff.2 hw
  omega
end

end Wired

namespace Rewired
open Kv Spec Mc Pool Cluster Props
open Wired (Setup)

variable {S : Type} [DecidableEq S] {H : Hashes} {name : S → Bytes} {r : Ring S} {p : Bytes → S}

section
variable {U : Setup S Op} {w : World S} {tr : List (Wired.Ev Op)} {x : State S}

/-- **C86**, a counter that nobody failed to reach: as C85_counter_exact, with connections that break and are replaced. -/
theorem C86_counter_exact (c : PatchedUse U H name r p w tr x) {k : Bytes} {e : Entry} {m : Nat} (he : (w (p k)).data k = some e)
    (hx : e.expiry = none) (hm : counterOf e.value = some m) (hops : ∀ i o, (i, o) ∈ Spec.Wired.starts tr → ∃ e, o = .increment k 1 e)
    (hb : m + (Spec.Wired.starts tr).length < 2 ^ 63) (hback : ∀ i, x.prog i = none) (hio : ∀ i, .finish i (.err .io) ∉ tr) :
    (∃ e', (x.world (p k)).find k = some e' ∧ counterOf e'.value = some (m + (Spec.Wired.starts tr).length))
      ∧ (Spec.Wired.numbers tr).Nodup
      ∧ ∀ v : Int, v ∈ Spec.Wired.numbers tr ↔ (m : Int) < v ∧ v ≤ (m + (Spec.Wired.starts tr).length : Nat) := by
  obtain ⟨e', v, h1, h2, h3, h4, h5, h6, h7⟩ := C86_counter c he hx hm hops hb
  obtain ⟨l, z, g1, g2, -, -, -, -, g6⟩ := C86_pool c
  have hl := Wired.loose_back (w := w) (forget_run g1) fun i => (g6 i).2 (hback i)
  rw [g2, ← Wired.numbers_length fun i r hi => (h7 i r hi).resolve_left fun h => hio i (h ▸ hi)] at hl
  have hv : v = m + (Spec.Wired.starts tr).length := by omega
  subst hv
  exact ⟨⟨e', h1, h2⟩, h5, Wired.all_numbers h5 h6 hl.symm⟩

/-- **C86**, a lock that somebody holds: as C85_lock_won, with connections that break and are replaced. -/
theorem C86_lock_won (c : PatchedUse U H name r p w tr x) {k : Bytes} (h0 : (w (p k)).find k = none)
    (hops : ∀ i o, (i, o) ∈ Spec.Wired.starts tr → ∃ it : Item, o = .add it ∧ it.key = k ∧ it.expiration = 0)
    (hs : Spec.Wired.starts tr ≠ []) (hback : ∀ i, x.prog i = none) (hio : ∀ i, .finish i (.err .io) ∉ tr) :
    (Spec.Wired.winners tr).length = 1 := by
  obtain ⟨l, z, h1, h2, -, -, -, -, h6⟩ := C86_pool c
  have hw := Wired.somebody_won (w := w) Wired.locks_text h0 (forget_run h1) (by rw [h2]; exact hops) (by rw [h2]; exact hs) (fun i => (h6 i).2 (hback i))
    (by rw [h2]; exact fun i e he => he ▸ hio i)
  rw [h2] at hw
  have := (C86_lock c hops).1
  have := List.length_pos_iff.2 hw
  omega
end

end Rewired
end Verif
