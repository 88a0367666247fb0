import Verif.Props.WiredBreakPool
import Verif.Props.PoolSchedUse
/-!
C85: a counter and a lock, through connections that may break.
-/

namespace Verif
namespace Wired
open Kv Spec Mc Pool Cluster Props

variable {S : Type} [DecidableEq S] {H : Hashes} {name : S → Bytes} {r : Ring S} {p : Bytes → S} {proc : Nat → Nat}

theorem numbers_append {M : Type} (l m : List (Ev M)) : Spec.Wired.numbers (l ++ m) = Spec.Wired.numbers l ++ Spec.Wired.numbers m := by
  induction l with
  | nil => rfl
  | cons x l ih =>
    cases x with
    | finish i r =>
      cases r with
      | ok o => cases o <;> simp [Spec.Wired.numbers, ih]
      | err e => simp [Spec.Wired.numbers, ih]
      | panic => simp [Spec.Wired.numbers, ih]
    | _ => simp [Spec.Wired.numbers, ih]

theorem winners_append {M : Type} (l m : List (Ev M)) : Spec.Wired.winners (l ++ m) = Spec.Wired.winners l ++ Spec.Wired.winners m := by
  induction l with
  | nil => rfl
  | cons x l ih =>
    cases x with
    | finish i r =>
      cases r with
      | ok o => cases o <;> simp [Spec.Wired.winners, ih]
      | err e => simp [Spec.Wired.winners, ih]
      | panic => simp [Spec.Wired.winners, ih]
    | _ => simp [Spec.Wired.winners, ih]

/-- What is true while everybody adds one to the counter `k`. -/
structure Ticking (p : Bytes → S) (k : Bytes) (m : Nat) (errs : Err → Prop) (tr : List (Ev Op)) (n : Nat) (z : Frail S) : Prop where
  value : ∃ e, (z.world (p k)).data k = some e ∧ e.expiry = none ∧ counterOf e.value = some (m + n)
  ops : ∀ i o x, z.calls i = some (o, x) → ∃ e, o = .increment k 1 e
  adrift : ∀ x ∈ z.adrift, ∃ e, x.2.2 = .increment k 1 e
  shown : ∀ v ∈ Spec.Wired.numbers tr, (m : Int) < v ∧ v ≤ (m + n : Nat)
  fresh : (Spec.Wired.numbers tr).Nodup
  held : ∀ i o v, z.calls i = some (o, some (.ok (.num v))) → ((m : Int) < v ∧ v ≤ (m + n : Nat)) ∧ v ∉ Spec.Wired.numbers tr
  apart : ∀ i j o o' v, z.calls i = some (o, some (.ok (.num v))) → z.calls j = some (o', some (.ok (.num v))) → i = j
  results : ∀ i o r, z.calls i = some (o, some r) → (∃ e, errs e ∧ r = .err e) ∨ ∃ v, r = .ok (.num v)
  seen : ∀ i r, .finish i r ∈ tr → (∃ e, errs e ∧ r = .err e) ∨ ∃ v, r = .ok (.num v)

/-- Called on a counter, `does` adds one to it and returns the sum. -/
def Adds (p : Bytes → S) (k : Bytes) (does : World S → Op → Res Out × World S) : Prop :=
  ∀ (w : World S) (n : Nat) (e : Int), (∃ e, (w (p k)).data k = some e ∧ e.expiry = none ∧ counterOf e.value = some n) → n + 1 < 2 ^ 63 →
    (does w (.increment k 1 e)).1 = .ok (.num (n + 1 : Nat))
      ∧ ∃ e', ((does w (.increment k 1 e)).2 (p k)).data k = some e' ∧ e'.expiry = none ∧ counterOf e'.value = some (n + 1)

theorem adds_text (k : Bytes) : Adds p k (serverDoes name p) := by
  intro w n e ⟨e0, h1, h2, h3⟩ hb
  have := incr_outcome (name (p k)) (w (p k)) k 1 e e0 n h1 h2 h3 hb
  rw [serverDoes_eq (k := k) rfl]
  refine ⟨this.1, ?_⟩
  show ∃ e', (if p k = p k then _ else w (p k)).data k = some e' ∧ _
  rw [if_pos rfl]
  exact this.2

variable {does : World S → Op → Res Out × World S} {errs : Err → Prop}

theorem ticking {w : World S} {k : Bytes} {e : Entry} {m : Nat} (hd : Adds p k does) (he : (w (p k)).data k = some e) (hx : e.expiry = none)
    (hm : counterOf e.value = some m) {l : List (Deed S Op)} {z : Frail S} (h : LooseRun does errs (Frail.start w) l z)
    (hops : ∀ i o, (i, o) ∈ Spec.Wired.starts (seenOf l) → ∃ e, o = .increment k 1 e)
    (hb : m + (Spec.Wired.starts (seenOf l)).length < 2 ^ 63) : Ticking p k m errs (seenOf l) (carriedOut l) z := by
  induction h with
  | nil =>
    exact ⟨⟨e, he, hx, hm⟩, fun _ _ _ h => (by cases h), fun _ h => (by cases h), fun _ h => (by cases h), List.nodup_nil, fun _ _ _ h => (by cases h),
      fun _ _ _ _ _ h => (by cases h), fun _ _ _ h => (by cases h), fun _ _ h => (by cases h)⟩
  | @snoc l d z z' hl hs ih =>
    have hb0 := hb
    rw [seenOf_append, starts_append, List.length_append] at hb
    have t := ih (fun i o hi => hops i o (by rw [seenOf_append, starts_append]; exact List.mem_append_left _ hi)) (by omega)
    obtain ⟨ws, -, hcount'⟩ := loose_count (hl.snoc hs)
    rw [carriedOut_append] at hcount'
    rw [seenOf_append, carriedOut_append]
    have nonew : ∀ {es : List (Ev Op)}, Spec.Wired.numbers es = [] → Spec.Wired.numbers (seenOf l ++ es) = Spec.Wired.numbers (seenOf l) := fun h => by
      rw [numbers_append, h, List.append_nil]
    have nofin : ∀ {es : List (Ev Op)}, (∀ i r, .finish i r ∉ es) → ∀ i r, .finish i r ∈ seenOf l ++ es → (∃ e, errs e ∧ r = .err e) ∨ ∃ v, r = .ok (.num v) :=
      fun h i r hi => t.seen i r ((List.mem_append.1 hi).resolve_right (h i r))
    have upd : ∀ {i : Nat} {v : Option (Op × Option (Res Out))} {Q : Nat → Op → Option (Res Out) → Prop}, (∀ o x, v = some (o, x) → Q i o x) →
        (∀ j o x, z.calls j = some (o, x) → Q j o x) → ∀ j o x, (if j = i then v else z.calls j) = some (o, x) → Q j o x := by
      intro i v Q hv hz j o x hj
      by_cases hji : j = i
      · subst hji; rw [if_pos rfl] at hj; exact hv o x hj
      · rw [if_neg hji] at hj; exact hz j o x hj
    -- somebody gets an error, or is gone
    have gone : ∀ {i : Nat} {o : Op} {x : Option (Res Out)} {v : Option (Op × Option (Res Out))} {ad : List (Nat × S × Op)} {es : List (Ev Op)},
        z.calls i = some (o, x) → (v = none ∨ ∃ e, errs e ∧ v = some (o, some (.err e))) → (∀ y ∈ ad, ∃ e, y.2.2 = .increment k 1 e) →
        (es = [] ∨ ∃ r, es = [.finish i r] ∧ x = some r) → carriedOut [d] = 0 → seenOf [d] = es →
        Ticking p k m errs (seenOf l ++ seenOf [d]) (carriedOut l + carriedOut [d]) ⟨z.world, fun j => if j = i then v else z.calls j, z.broken, ad⟩ := by
      intro i o x v ad es hi hv had hes hc hse
      rw [hc, Nat.add_zero, hse]
      have hsub : ∀ j o' y, (if j = i then v else z.calls j) = some (o', some (.ok (.num y))) → j ≠ i ∧ z.calls j = some (o', some (.ok (.num y))) := by
        intro j o' y hj
        by_cases hji : j = i
        · rw [if_pos hji] at hj
          rcases hv with rfl | ⟨_, -, rfl⟩ <;> cases hj
        · rw [if_neg hji] at hj; exact ⟨hji, hj⟩
      have hnum : (∀ v ∈ Spec.Wired.numbers (seenOf l ++ es), (m : Int) < v ∧ v ≤ (m + carriedOut l : Nat)) ∧ (Spec.Wired.numbers (seenOf l ++ es)).Nodup
          ∧ ∀ j o' y, j ≠ i → z.calls j = some (o', some (.ok (.num y))) → y ∉ Spec.Wired.numbers (seenOf l ++ es) := by
        rcases hes with rfl | ⟨r, rfl, rfl⟩
        · rw [nonew rfl]; exact ⟨t.shown, t.fresh, fun j o' y _ hj => (t.held j o' y hj).2⟩
        · rcases t.results i o r hi with ⟨_, -, rfl⟩ | ⟨y, rfl⟩
          · rw [nonew rfl]; exact ⟨t.shown, t.fresh, fun j o' y _ hj => (t.held j o' y hj).2⟩
          · rw [numbers_append]
            show (∀ v ∈ _ ++ [y], _) ∧ (_ ++ [y]).Nodup ∧ ∀ j o' y', j ≠ i → _ → y' ∉ _ ++ [y]
            obtain ⟨g1, g2⟩ := t.held i o y hi
            refine ⟨fun v hv => ?_, ?_, fun j o' y' hji hj hy => ?_⟩
            · rcases List.mem_append.1 hv with hv | hv
              · exact t.shown v hv
              · rw [List.mem_singleton.1 hv]; exact g1
            · rw [List.nodup_append]
              refine ⟨t.fresh, by simp, fun a ha b hb e => ?_⟩
              rw [List.mem_singleton.1 hb] at e
              rw [e] at ha
              exact g2 ha
            · rcases List.mem_append.1 hy with hy | hy
              · exact (t.held j o' y' hj).2 hy
              · rw [List.mem_singleton.1 hy] at hj
                exact hji (t.apart j i o' o y hj hi)
      refine ⟨t.value, upd (Q := fun _ o _ => ∃ e, o = .increment k 1 e) (fun o' x' e => ?_) t.ops, had, hnum.1, hnum.2.1, fun j o' y hj => ?_,
        fun j j' o1 o2 y hj hj' => ?_, fun j o' y hj => ?_, fun j y hj => ?_⟩
      · rcases hv with rfl | ⟨_, -, rfl⟩
        · cases e
        · cases e; exact t.ops i o _ hi
      · obtain ⟨g1, g2⟩ := hsub j o' y hj
        exact ⟨(t.held j o' y g2).1, hnum.2.2 j o' y g1 g2⟩
      · exact t.apart j j' o1 o2 y (hsub j o1 y hj).2 (hsub j' o2 y hj').2
      · have hj : (if j = i then v else z.calls j) = _ := hj
        by_cases hji : j = i
        · rw [if_pos hji] at hj
          rcases hv with rfl | ⟨e, he, rfl⟩
          · cases hj
          · cases hj; exact .inl ⟨e, he, rfl⟩
        · rw [if_neg hji] at hj; exact t.results j o' y hj
      · rcases List.mem_append.1 hj with hj | hj
        · exact t.seen j y hj
        · rcases hes with rfl | ⟨r, rfl, rfl⟩
          · cases hj
          · have e := List.mem_singleton.1 hj
            injection e with e1 e2
            subst e1 e2
            exact t.results j o y hi
    cases hs with
    | tick d =>
      refine ⟨t.value, t.ops, t.adrift, ?_, ?_, ?_, t.apart, t.results, nofin (by simp [seenOf])⟩
      · rw [nonew rfl]; exact t.shown
      · rw [nonew rfl]; exact t.fresh
      · rw [nonew rfl]; exact t.held
    | start i o g1 =>
      have ho := hops i o (by rw [seenOf_append, starts_append]; exact List.mem_append_right _ (.head _))
      have hsub : ∀ j o' y, (if j = i then some (o, none) else z.calls j) = some (o', some y) → z.calls j = some (o', some y) := by
        intro j o' y hj
        by_cases hji : j = i
        · rw [if_pos hji] at hj; cases hj
        · rw [if_neg hji] at hj; exact hj
      refine ⟨t.value, upd (Q := fun _ o _ => ∃ e, o = .increment k 1 e) (fun o' x' e => by cases e; exact ho) t.ops, t.adrift, ?_, ?_, ?_,
        fun j j' o1 o2 y hj hj' => t.apart j j' o1 o2 y (hsub j o1 _ hj) (hsub j' o2 _ hj'), fun j o' y hj => t.results j o' y (hsub j o' y hj), nofin (by simp [seenOf])⟩
      · rw [nonew rfl]; exact t.shown
      · rw [nonew rfl]; exact t.fresh
      · rw [nonew rfl]; exact fun j o' y hj => t.held j o' y (hsub j o' _ hj)
    | finish i o y g1 => exact gone (v := none) g1 (.inl rfl) t.adrift (.inr ⟨y, rfl, rfl⟩) rfl rfl
    | breaks d br g1 g2 =>
      rw [g1, g2, List.append_nil]
      exact ⟨t.value, t.ops, t.adrift, t.shown, t.fresh, t.held, t.apart, t.results, t.seen⟩
    | run i o g1 =>
      obtain ⟨ex, rfl⟩ := t.ops i o none g1
      have hone : m + carriedOut l + 1 < 2 ^ 63 := by
        rw [seenOf_append, starts_append, List.length_append] at hcount'
        simp only [carriedOut, seenOf, Spec.Wired.starts, List.length_nil, List.append_nil] at hcount' hb
        omega
      obtain ⟨o1, o2⟩ := hd z.world _ ex t.value hone
      have hsub : ∀ j o' y, (if j = i then some (.increment k 1 ex, some (does z.world (.increment k 1 ex)).1) else z.calls j) = some (o', some (.ok (.num y))) →
          (j = i ∧ y = (m + (carriedOut l + 1) : Nat)) ∨ z.calls j = some (o', some (.ok (.num y))) := by
        intro j o' y hj
        by_cases hji : j = i
        · rw [if_pos hji, o1] at hj
          injection hj with hj; injection hj with _ hj; injection hj with hj; injection hj with hj; injection hj with hj
          exact .inl ⟨hji, hj.symm⟩
        · rw [if_neg hji] at hj; exact .inr hj
      have hle : ∀ {v : Int}, (m : Int) < v ∧ v ≤ (m + carriedOut l : Nat) → (m : Int) < v ∧ v ≤ (m + (carriedOut l + 1) : Nat) := fun ⟨h1, h2⟩ => ⟨h1, by omega⟩
      show Ticking p k m errs (seenOf l ++ []) (carriedOut l + 1) _
      rw [List.append_nil]
      refine ⟨o2, upd (Q := fun _ o _ => ∃ e, o = .increment k 1 e) (fun o' x' e => by cases e; exact ⟨ex, rfl⟩) t.ops, t.adrift, fun v hv => hle (t.shown v hv), t.fresh,
        fun j o' y hj => ?_, fun j j' o1' o2' y hj hj' => ?_, fun j o' y hj => ?_, t.seen⟩
      · rcases hsub j o' y hj with ⟨-, rfl⟩ | hj
        · refine ⟨⟨by omega, Int.le_refl _⟩, fun hm => ?_⟩
          have := (t.shown _ hm).2
          omega
        · exact ⟨hle (t.held j o' y hj).1, (t.held j o' y hj).2⟩
      · rcases hsub j o1' y hj with ⟨e1, e2⟩ | hj <;> rcases hsub j' o2' y hj' with ⟨e3, e4⟩ | hj'
        · rw [e1, e3]
        · have := (t.held j' o2' y hj').1.2; omega
        · have := (t.held j o1' y hj).1.2; omega
        · exact t.apart j j' o1' o2' y hj hj'
      · have hj : (if j = i then some (.increment k 1 ex, some (does z.world (.increment k 1 ex)).1) else z.calls j) = _ := hj
        by_cases hji : j = i
        · rw [if_pos hji, o1] at hj
          injection hj with hj; injection hj with _ hj; injection hj with hj
          exact .inr ⟨_, hj.symm⟩
        · rw [if_neg hji] at hj; exact t.results j o' y hj
    | lose i o x e g1 g2 => exact gone g1 (.inr ⟨e, g2, rfl⟩) t.adrift (.inl rfl) rfl rfl
    | fail i q s o e g1 g2 =>
      refine gone g1 (.inr ⟨e, g2, rfl⟩) (fun y hy => ?_) (.inl rfl) rfl rfl
      rcases List.mem_append.1 hy with hy | hy
      · exact t.adrift y hy
      · rw [List.mem_singleton.1 hy]; exact t.ops i o _ g1
    | late q s o l1 l2 g1 =>
      obtain ⟨ex, ho⟩ := t.adrift (q, s, o) (by rw [g1]; simp)
      dsimp only at ho
      subst ho
      have hone : m + carriedOut l + 1 < 2 ^ 63 := by
        rw [seenOf_append, starts_append, List.length_append] at hcount'
        simp only [carriedOut, seenOf, Spec.Wired.starts, List.length_nil, List.append_nil] at hcount' hb
        omega
      obtain ⟨-, o2⟩ := hd z.world _ ex t.value hone
      have hle : ∀ {v : Int}, (m : Int) < v ∧ v ≤ (m + carriedOut l : Nat) → (m : Int) < v ∧ v ≤ (m + (carriedOut l + 1) : Nat) := fun ⟨h1, h2⟩ => ⟨h1, by omega⟩
      show Ticking p k m errs (seenOf l ++ []) (carriedOut l + 1) _
      rw [List.append_nil]
      refine ⟨o2, t.ops, fun y hy => t.adrift y ?_, fun v hv => hle (t.shown v hv), t.fresh, fun j o' y hj => ⟨hle (t.held j o' y hj).1, (t.held j o' y hj).2⟩,
        t.apart, t.results, t.seen⟩
      rw [g1]
      rcases List.mem_append.1 hy with hy | hy
      · exact List.mem_append_left _ hy
      · exact List.mem_append_right _ (.tail _ hy)

/-- Different numbers from `m + 1` to `m + n`: at most `n` of them. -/
theorem few_numbers {l : List Int} {m n : Nat} (hn : l.Nodup) (h : ∀ v ∈ l, (m : Int) < v ∧ v ≤ (m + n : Nat)) : l.length ≤ n := by
  have := length_le_of_nodup (l := l) (m := (List.range n).map fun i => ((m + 1 + i : Nat) : Int)) hn fun v hv => by
    obtain ⟨h1, h2⟩ := h v hv
    refine List.mem_map.2 ⟨(v - m - 1).toNat, List.mem_range.2 (by omega), by omega⟩
  simpa using this

section
variable {U : Setup S Op} {w : World S} {tr : List (Ev Op)} {x : State S}

/-- **C85**, a counter: goroutines of any number of processes add one to a counter, while connections break at any
moment.  The counter is at least what it was plus the successes, and at most what it was plus the calls; every call that
has returned either failed or returned a number that the counter has reached, and no two the same. -/
theorem C85_counter (c : FrailUse U H name r p w tr x) {k : Bytes} {e : Entry} {m : Nat} (he : (w (p k)).data k = some e) (hx : e.expiry = none)
    (hm : counterOf e.value = some m) (hops : ∀ i o, (i, o) ∈ Spec.Wired.starts tr → ∃ e, o = .increment k 1 e)
    (hb : m + (Spec.Wired.starts tr).length < 2 ^ 63) :
    ∃ e' v, (x.world (p k)).find k = some e' ∧ counterOf e'.value = some v
      ∧ m + (Spec.Wired.numbers tr).length ≤ v ∧ v ≤ m + (Spec.Wired.starts tr).length
      ∧ (Spec.Wired.numbers tr).Nodup ∧ (∀ n ∈ Spec.Wired.numbers tr, (m : Int) < n ∧ n ≤ v)
      ∧ ∀ i r, .finish i r ∈ tr → r = .err .io ∨ ∃ n, r = .ok (.num n) := by
  obtain ⟨l, z, h1, h2, h3, h4, -⟩ := C85_pool c
  have t := ticking (adds_text k) he hx hm (loose_run h1) (by rw [h2]; exact hops) (by rw [h2]; exact hb)
  have hone := C85_at_most_once c
  rw [h2, h3] at t
  obtain ⟨e', g1, g2, g3⟩ := t.value
  rw [h4] at g1
  refine ⟨e', _, find_forever g1 g2, g3, ?_, by omega, t.fresh, t.shown, fun i r h => (t.seen i r h).imp (fun ⟨e, h1, h2⟩ => h1 ▸ h2) id⟩
  have := few_numbers t.fresh t.shown
  omega
end

/-! ### A lock -/

/-- What is true while everybody adds the key `k`, to stay. -/
structure Locking (p : Bytes → S) (k : Bytes) (tr : List (Ev Op)) (z : Frail S) : Prop where
  ops : ∀ i o x, z.calls i = some (o, x) → ∃ it : Item, o = .add it ∧ it.key = k ∧ it.expiration = 0
  adrift : ∀ x ∈ z.adrift, ∃ it : Item, x.2.2 = .add it ∧ it.key = k ∧ it.expiration = 0
  taken : (Spec.Wired.winners tr ≠ [] ∨ ∃ i o, z.calls i = some (o, some (.ok .done))) → ∃ e, (z.world (p k)).data k = some e ∧ e.expiry = none
  few : Spec.Wired.winners tr = [] ∨ (Spec.Wired.winners tr).length = 1 ∧ ∀ i o, z.calls i ≠ some (o, some (.ok .done))
  apart : ∀ i j o o', z.calls i = some (o, some (.ok .done)) → z.calls j = some (o', some (.ok .done)) → i = j

/-- With `does`, nobody succeeds to add a key once somebody has, and the key stays; whoever does not find it succeeds. -/
def Locks (p : Bytes → S) (does : World S → Op → Res Out × World S) : Prop :=
  ∀ (w : World S) (it : Item), it.expiration = 0 →
    ((does w (.add it)).1 = .ok .done → (∃ e, ((does w (.add it)).2 (p it.key)).data it.key = some e ∧ e.expiry = none)
        ∧ ¬ ∃ e, (w (p it.key)).data it.key = some e ∧ e.expiry = none)
      ∧ ((∃ e, (w (p it.key)).data it.key = some e ∧ e.expiry = none) → ∃ e, ((does w (.add it)).2 (p it.key)).data it.key = some e ∧ e.expiry = none)
      ∧ ((w (p it.key)).find it.key = none → (does w (.add it)).1 = .ok .done)

theorem locks_text : Locks p (serverDoes name p) := by
  intro w it h0
  rw [serverDoes_eq (k := it.key) rfl]
  show (_ → (∃ e, (if p it.key = p it.key then (textApi (name (p it.key)) (w (p it.key)) (.add it)).2 else w (p it.key)).data it.key = some e ∧ _) ∧ _)
    ∧ (_ → ∃ e, (if p it.key = p it.key then (textApi (name (p it.key)) (w (p it.key)) (.add it)).2 else w (p it.key)).data it.key = some e ∧ _) ∧ _
  rw [if_pos rfl]
  rcases add_outcome (name (p it.key)) (w (p it.key)) it h0 with ⟨g1, g2, g3⟩ | ⟨⟨e, g1⟩, g2, g3⟩
  · exact ⟨fun _ => ⟨g3, fun ⟨e, h1, h2⟩ => by rw [find_forever h1 h2] at g1; cases g1⟩, fun _ => g3, fun _ => g2⟩
  · exact ⟨fun h => absurd h g2, fun h => by rw [g3]; exact h, fun h => by rw [g1] at h; cases h⟩

theorem locking {w : World S} {k : Bytes} (hd : Locks p does) {l : List (Deed S Op)} {z : Frail S} (h : LooseRun does errs (Frail.start w) l z)
    (hops : ∀ i o, (i, o) ∈ Spec.Wired.starts (seenOf l) → ∃ it : Item, o = .add it ∧ it.key = k ∧ it.expiration = 0) : Locking p k (seenOf l) z := by
  induction h with
  | nil =>
    exact ⟨fun _ _ _ h => (by cases h), fun _ h => (by cases h), fun h => (by rcases h with h | ⟨_, _, h⟩; exact absurd rfl h; cases h), .inl rfl,
      fun _ _ _ _ h => (by cases h)⟩
  | @snoc l d z z' hl hs ih =>
    have t := ih (fun i o hi => hops i o (by rw [seenOf_append, starts_append]; exact List.mem_append_left _ hi))
    rw [seenOf_append]
    have nonew : ∀ {es : List (Ev Op)}, Spec.Wired.winners es = [] → Spec.Wired.winners (seenOf l ++ es) = Spec.Wired.winners (seenOf l) := fun h => by
      rw [winners_append, h, List.append_nil]
    -- somebody is added, gets an error or is gone, without having succeeded
    have idle : ∀ {i : Nat} {v : Option (Op × Option (Res Out))} {br : Nat → S → Prop} {ad : List (Nat × S × Op)} {es : List (Ev Op)},
        (∀ o x, v = some (o, x) → x ≠ some (.ok .done) ∧ ∃ it : Item, o = .add it ∧ it.key = k ∧ it.expiration = 0) →
        (∀ y ∈ ad, ∃ it : Item, y.2.2 = .add it ∧ it.key = k ∧ it.expiration = 0) → Spec.Wired.winners es = [] →
        Locking p k (seenOf l ++ es) ⟨z.world, fun j => if j = i then v else z.calls j, br, ad⟩ := by
      intro i v br ad es hv had hes
      have hsub : ∀ j o', (if j = i then v else z.calls j) = some (o', some (.ok .done)) → z.calls j = some (o', some (.ok .done)) := by
        intro j o' hj
        by_cases hji : j = i
        · rw [if_pos hji] at hj; exact absurd rfl (hv _ _ hj).1
        · rw [if_neg hji] at hj; exact hj
      refine ⟨fun j o x hj => ?_, had, fun hj => t.taken ?_, ?_, fun j j' o o' hj hj' => t.apart j j' o o' (hsub j o hj) (hsub j' o' hj')⟩
      · have hj : (if j = i then v else z.calls j) = _ := hj
        by_cases hji : j = i
        · rw [if_pos hji] at hj; exact (hv _ _ hj).2
        · rw [if_neg hji] at hj; exact t.ops j o x hj
      · rw [nonew hes] at hj
        rcases hj with hj | ⟨j, o, hj⟩
        · exact .inl hj
        · exact .inr ⟨j, o, hsub j o hj⟩
      · rw [nonew hes]
        rcases t.few with g | ⟨g1, g2⟩
        · exact .inl g
        · exact .inr ⟨g1, fun j o hj => g2 j o (hsub j o hj)⟩
    cases hs with
    | tick d => exact ⟨t.ops, t.adrift, by rw [nonew rfl]; exact t.taken, by rw [nonew rfl]; exact t.few, t.apart⟩
    | start i o g1 =>
      have ho := hops i o (by rw [seenOf_append, starts_append]; exact List.mem_append_right _ (.head _))
      exact idle (es := [.start i o]) (fun o' x e => by cases e; exact ⟨nofun, ho⟩) t.adrift rfl
    | finish i o y g1 =>
      by_cases hy : y = .ok .done
      · subst hy
        have hnil : Spec.Wired.winners (seenOf l) = [] := t.few.resolve_right fun g => g.2 i o g1
        have hone : Spec.Wired.winners (seenOf l ++ seenOf [Deed.ev (S := S) (.finish i (.ok .done))]) = [i] := by
          rw [winners_append, hnil]; rfl
        have hnone : ∀ j o', (if j = i then none else z.calls j) ≠ some (o', some (.ok .done)) := by
          intro j o' hj
          by_cases hji : j = i
          · rw [if_pos hji] at hj; cases hj
          · rw [if_neg hji] at hj; exact hji (t.apart j i o' o hj g1)
        refine ⟨fun j o' x hj => ?_, t.adrift, fun _ => t.taken (.inr ⟨i, o, g1⟩), .inr ⟨by rw [hone]; rfl, hnone⟩, fun j _ o' _ hj => absurd hj (hnone j o')⟩
        have hj : (if j = i then none else z.calls j) = _ := hj
        by_cases hji : j = i
        · rw [if_pos hji] at hj; cases hj
        · rw [if_neg hji] at hj; exact t.ops j o' x hj
      · refine idle (es := [.finish i y]) (fun _ _ h => nomatch h) t.adrift ?_
        cases y with
        | ok v => cases v <;> first | rfl | exact absurd rfl hy
        | _ => rfl
    | breaks d br g1 g2 => rw [g1, List.append_nil]; exact ⟨t.ops, t.adrift, t.taken, t.few, t.apart⟩
    | run i o g1 =>
      obtain ⟨it, rfl, hk, h0⟩ := t.ops i o none g1
      obtain ⟨o1, o2, -⟩ := hd z.world it h0
      rw [hk] at o1 o2
      rw [show seenOf [Deed.run (S := S) (M := Op) i] = [] from rfl, List.append_nil]
      by_cases hr : (does z.world (.add it)).1 = .ok .done
      · obtain ⟨o3, o4⟩ := o1 hr
        have hnil : Spec.Wired.winners (seenOf l) = [] := Classical.byContradiction fun g => o4 (t.taken (.inl g))
        have hnone : ∀ j o', z.calls j ≠ some (o', some (.ok .done)) := fun j o' hj => o4 (t.taken (.inr ⟨j, o', hj⟩))
        have hsub : ∀ j o', (if j = i then some (.add it, some (does z.world (.add it)).1) else z.calls j) = some (o', some (.ok .done)) → j = i := by
          intro j o' hj
          by_cases hji : j = i
          · exact hji
          · rw [if_neg hji] at hj; exact absurd hj (hnone j o')
        refine ⟨fun j o' x hj => ?_, t.adrift, fun _ => o3, .inl hnil, fun j j' o1 o2 hj hj' => (hsub j o1 hj).trans (hsub j' o2 hj').symm⟩
        have hj : (if j = i then some (.add it, some (does z.world (.add it)).1) else z.calls j) = _ := hj
        by_cases hji : j = i
        · rw [if_pos hji] at hj; cases hj; exact ⟨it, rfl, hk, h0⟩
        · rw [if_neg hji] at hj; exact t.ops j o' x hj
      · have b := idle (i := i) (v := some (.add it, some (does z.world (.add it)).1)) (br := z.broken) (es := [])
          (fun o' x e => by cases e; exact ⟨fun e => hr (by injection e), it, rfl, hk, h0⟩) t.adrift rfl
        rw [List.append_nil] at b
        exact ⟨b.ops, b.adrift, fun g => o2 (b.taken g), b.few, b.apart⟩
    | lose i o x e g1 _ => exact idle (es := []) (fun o' x e => by cases e; exact ⟨nofun, t.ops i o _ g1⟩) t.adrift rfl
    | fail i q s o e g1 _ =>
      refine idle (es := []) (fun o' x e => by cases e; exact ⟨nofun, t.ops i o _ g1⟩) (fun y hy => ?_) rfl
      rcases List.mem_append.1 hy with hy | hy
      · exact t.adrift y hy
      · rw [List.mem_singleton.1 hy]; exact t.ops i o _ g1
    | late q s o l1 l2 g1 =>
      obtain ⟨it, ho, hk, h0⟩ := t.adrift (q, s, o) (by rw [g1]; simp)
      dsimp only at ho
      subst ho
      obtain ⟨-, o2, -⟩ := hd z.world it h0
      rw [hk] at o2
      rw [show seenOf [Deed.late (M := Op) q s] = [] from rfl, List.append_nil]
      refine ⟨t.ops, fun y hy => t.adrift y ?_, fun g => o2 (t.taken g), t.few, t.apart⟩
      rw [g1]
      rcases List.mem_append.1 hy with hy | hy
      · exact List.mem_append_left _ hy
      · exact List.mem_append_right _ (.tail _ hy)

section
variable {U : Setup S Op} {w : World S} {tr : List (Ev Op)} {x : State S}

/-- **C85**, a lock: goroutines of any number of processes `Add` the same key, without expiration, while connections
break at any moment.  At most one is told that it succeeded, and if one is, the key is there. -/
theorem C85_lock (c : FrailUse U H name r p w tr x) {k : Bytes}
    (hops : ∀ i o, (i, o) ∈ Spec.Wired.starts tr → ∃ it : Item, o = .add it ∧ it.key = k ∧ it.expiration = 0) :
    (Spec.Wired.winners tr).length ≤ 1 ∧ (Spec.Wired.winners tr ≠ [] → ∃ e, (x.world (p k)).find k = some e) := by
  obtain ⟨l, z, h1, h2, h3, h4, -⟩ := C85_pool c
  have t := locking locks_text (loose_run h1) (by rw [h2]; exact hops)
  rw [h2] at t
  refine ⟨?_, fun g => ?_⟩
  · rcases t.few with g | ⟨g, -⟩
    · rw [g]; exact Nat.zero_le _
    · omega
  · obtain ⟨e, g1, g2⟩ := t.taken (.inl g)
    rw [h4] at g1
    exact ⟨e, find_forever g1 g2⟩
end

end Wired
end Verif
