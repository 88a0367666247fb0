import Verif.Props.JointTime
import Verif.Props.JointSim
/-!
C83, the order of the calls.
-/

namespace Verif
namespace Joint
open Srv Srv.Accept Spec Props

variable {T : Type} [DecidableEq T]

/-! ### The calls a router is for -/

/-- The operation. -/
def askOf : Use → Ask
  | .textSet i | .metaSet i | .binSet _ i => .op (.set i)
  | .metaGet k | .binGet _ k => .op (.get k)

/-- The protocol of a client. -/
def protoOf : Life.Kind → Proto
  | .text => .text []
  | .metap => .metap
  | .binary => .binary

/-- The operations of a client of a router. -/
def RouterAsk (k : Life.Kind) (a : Ask) : Prop := ∃ u : Use, u.Good ∧ u.kind = k ∧ askOf u = a

/-- The recycled header. -/
def hdrOf : Use → Bin.ReqHdr
  | .binGet h _ | .binSet h _ => h
  | _ => {}

/-- The same call with another recycled header. -/
def withHdr (h : Bin.ReqHdr) : Use → Use
  | .binGet _ k => .binGet h k
  | .binSet _ i => .binSet h i
  | u => u

theorem map_twice {α β γ : Type} (f : α → β) (g : β → γ) (c : Call α) : (c.map f).map g = c.map fun x => g (f x) := by
  unfold Call.map
  congr 1
  funext i
  show (((c.rd i).1.map f).map g, (c.rd i).2) = ((c.rd i).1.map fun x => g (f x), (c.rd i).2)
  cases (c.rd i).1 <;> rfl

theorem use_issue (u : Use) (h2 : Bin.ReqHdr) : Issue.use (protoOf u.kind) ⟨askOf u, hdrOf u, h2⟩ = u.call := by
  cases u with
  | textSet i =>
    show (((Text.set i).map fun _ => Out.done).map Said.out).map Said.toOut = _
    rw [map_twice, map_twice]; rfl
  | metaSet i =>
    show (((Meta.set i).map fun _ => Out.done).map Said.out).map Said.toOut = _
    rw [map_twice, map_twice]; rfl
  | binSet h i =>
    show (((Bin.set h i).map fun _ => Out.done).map Said.out).map Said.toOut = _
    rw [map_twice, map_twice]; rfl
  | metaGet k =>
    show (((Meta.get k).map Out.item).map Said.out).map Said.toOut = _
    rw [map_twice, map_twice]; rfl
  | binGet h k =>
    show (((Bin.get h k).map Out.item).map Said.out).map Said.toOut = _
    rw [map_twice, map_twice]; rfl

theorem issue_use {u : Use} {k : Life.Kind} (hk : u.kind = k) {i : Issue} (hi : askOf u = i.ask) :
    i.use (protoOf k) = (withHdr i.h1 u).call := by
  obtain ⟨a, h1, h2⟩ := i
  subst hk
  have hi' : askOf u = a := hi
  subst hi'
  cases u <;> first | exact use_issue (.binSet h1 _) h2 | exact use_issue (.binGet h1 _) h2 | exact use_issue (.textSet _) h2 | exact use_issue (.metaSet _) h2 | exact use_issue (.metaGet _) h2

theorem withHdr_keeps (h : Bin.ReqHdr) (u : Use) : (u.Good → (withHdr h u).Good) ∧ (withHdr h u).kind = u.kind
    ∧ askOf (withHdr h u) = askOf u := by
  cases u <;> exact ⟨id, rfl, rfl⟩

theorem asked_use {u : Use} (hu : u.Good) : asked (protoOf u.kind) (askOf u) = [useReq u] := by
  cases u with
  | binSet h i =>
    show [binStores opSet i] = [binReq i]
    have hx : i.expiration % 2 ^ 32 = i.expiration := by
      have := hu.1.good.exp
      unfold InRange at this
      exact Int.emod_eq_of_lt hu.2 (by omega)
    unfold binStores binReq
    rw [hx]
    rfl
  | metaSet i =>
    show [_] = [metaSetReq i]
    unfold metaSetReq
    have : decide (i.cas ≠ 0) = decide (0 < i.cas) := by
      by_cases h : i.cas = 0
      · rw [h]; rfl
      · rw [decide_eq_true h, decide_eq_true (Nat.pos_of_ne_zero h)]
    simp only [protoOf, Use.kind, askOf, asked, this]
    cases i.flags <;> rfl
  | textSet i => rfl
  | metaGet k => rfl
  | binGet h k => rfl

theorem router_clients {P : Nat → Sched.Params T} (hC : RouterClients P) :
    Clients P (fun c => protoOf (P c).kind) (fun c => RouterAsk (P c).kind) where
  kind c := by cases (P c).kind <;> rfl
  calls c x hx := by
    obtain ⟨u, h1, h2, rfl⟩ := hC c x hx
    exact ⟨⟨askOf u, hdrOf u, {}⟩, ⟨u, h1, h2, rfl⟩, by rw [← h2]; exact (use_issue u {}).symm⟩

theorem plain_key {k : Bytes} (h : Key k) : Plain k := key_plain h

theorem router_fit {k : Life.Kind} {a : Ask} (h : RouterAsk k a) : Spec.Fit (protoOf k) a := by
  obtain ⟨u, hu, rfl, rfl⟩ := h
  cases u with
  | textSet i => exact ⟨⟨key_plain hu.1.good.key, (good_flagBytes hu.1).2, hu.1.good.exp, by
      have := hu.1.good.value
      unfold maxValue at this
      omega⟩, hu.2⟩
  | metaGet k => exact key_plain hu
  | metaSet i =>
    refine ⟨key_plain hu.1.good.key, fun f hf => ?_, hu.1.good.exp, by rw [hu.2]; decide, ?_⟩
    · obtain ⟨h1, h2⟩ := hu.1.flags f hf
      refine ⟨by omega, ?_⟩
      rw [List.take_of_length_le (by omega)]
      exact h2
    · have := hu.1.good.value
      unfold maxValue at this
      omega
  | binGet h k => have := hu.2; show k.length ≤ 65535; omega
  | binSet h i =>
    have h1 := hu.1.good.value
    have h2 := hu.1.good.key.2
    unfold maxValue at h1
    exact ⟨by omega, fun f hf => by have := (hu.1.flags f hf).1; omega, by omega⟩

/-- What the shelf answers. -/
theorem shelf_answer {u : Use} {s : Shelf} : (∃ v, askOf u = .op (.get v)) →
    shelfAnswer s (useReq u) = (.ok [match s.value (useReq u).key with
      | some v => { key := (useReq u).key, value := v }
      | none => { error := some .itemNotFound }], s) := by
  rintro ⟨k, hk⟩
  unfold shelfAnswer
  rw [if_pos (by cases u <;> first | rfl | cases hk)]
  cases s.value (useReq u).key <;> rfl

theorem shelf_store {u : Use} {s : Shelf} (h : ∃ i, askOf u = .op (.set i)) : ∃ s', shelfAnswer s (useReq u) = (.ok [{}], s') := by
  obtain ⟨k, hk⟩ := h
  unfold shelfAnswer
  have h1 : ¬ (useReq u).opcode = opGet := by
    cases u <;> first | (show ¬ opSet = opGet; decide) | cases hk
  have h2 : (useReq u).opcode = opSet := by cases u <;> first | rfl | cases hk
  rw [if_neg h1, if_pos h2]
  cases u <;> first | exact ⟨_, rfl⟩ | cases hk

theorem value_small {s : Shelf} (hs : Small s) (k : Bytes) {v : Bytes} (h : s.value k = some v) : v.length ≤ maxValue := by
  have := small_value hs k
  rwa [h] at this

theorem timed_courteous (k : Life.Kind) : Courteous timed (protoOf k) (fun z => Small z.1) (RouterAsk k) := by
  rintro ⟨s, ds⟩ a hs ha
  refine ⟨router_fit ha, fun req hreq => ?_⟩
  obtain ⟨u, hu, rfl, rfl⟩ := ha
  rw [asked_use hu] at hreq
  cases List.mem_singleton.1 hreq
  have hs' : Small (s.tick (ds.headD 0)) := hs
  generalize hz : s.tick (ds.headD 0) = z at hs'
  obtain ⟨res, e1, _, e2⟩ := use_answer u hu hs'
  have hsm := small_outcome u hu hs'
  rw [← e2] at hsm
  have e1' : (timed (s, ds) (useReq u)).1 = .ok res := by
    show (shelfAnswer (s.tick (ds.headD 0)) (useReq u)).1 = _
    rw [hz]; exact e1
  refine ⟨res, e1', ?_, by
    show Small (shelfAnswer (s.tick (ds.headD 0)) (useReq u)).2
    rw [hz]; exact hsm⟩
  have hv : ∀ x, ((match z.value x with | some v => { key := x, value := v } | none => { error := some .itemNotFound } : Response)).value.length ≤ maxValue := by
    intro x
    cases h : z.value x with
    | none => exact Nat.zero_le _
    | some v => exact value_small hs' x h
  have hk : ∀ x, ((match z.value x with | some v => { key := x, value := v } | none => { error := some .itemNotFound } : Response)).key.length ≤ x.length := by
    intro x
    cases h : z.value x with
    | none => exact Nat.zero_le _
    | some v => exact Nat.le_refl _
  have hf : ∀ x, ((match z.value x with | some v => { key := x, value := v } | none => { error := some .itemNotFound } : Response)).flags = [] := by
    intro x
    cases h : z.value x <;> rfl
  unfold maxValue at hv
  unfold Usable
  cases u with
  | textSet i =>
    obtain ⟨s', e⟩ := shelf_store (u := .textSet i) (s := z) ⟨i, rfl⟩
    rw [e] at e1
    cases e1
    rw [if_neg (by show ¬ opSet = opGet; decide)]
    exact ⟨_, _, rfl, rfl, (fun h => by cases h), (by
      rw [if_neg (by show ¬ (opSet = opIncrement ∨ opSet = opDecrement); decide), if_neg (by show ¬ opSet = opVersion; decide)]
      intro h; cases h)⟩
  | metaSet i =>
    obtain ⟨s', e⟩ := shelf_store (u := .metaSet i) (s := z) ⟨i, rfl⟩
    rw [e] at e1
    cases e1
    rw [if_neg (by show ¬ opSet = opGet; decide)]
    exact ⟨_, _, rfl, rfl, (fun h => by cases h), (by
      rw [if_neg (by show ¬ (opSet = opIncrement ∨ opSet = opDecrement); decide), if_neg (by show ¬ opSet = opVersion; decide)]
      intro h; cases h)⟩
  | binSet h i =>
    obtain ⟨s', e⟩ := shelf_store (u := .binSet h i) (s := z) ⟨i, rfl⟩
    rw [e] at e1
    cases e1
    rw [if_neg (by show ¬ opSet = opGet; decide)]
    exact ⟨_, _, rfl, rfl, fun _ => ⟨rfl, rfl⟩, (by
      rw [if_neg (by show ¬ (opSet = opIncrement ∨ opSet = opDecrement); decide), if_neg (by show ¬ opSet = opVersion; decide)]
      intro _; rfl)⟩
  | metaGet k =>
    rw [shelf_answer (u := .metaGet k) (s := z) ⟨k, rfl⟩] at e1
    cases e1
    rw [if_pos (by rfl)]
    refine ⟨Nat.le_refl _, fun r hr => ?_⟩
    cases List.mem_singleton.1 hr
    exact ⟨.inl (hf k), Nat.lt_of_le_of_lt (hv k) (by decide)⟩
  | binGet h k =>
    rw [shelf_answer (u := .binGet h k) (s := z) ⟨k, rfl⟩] at e1
    cases e1
    rw [if_pos (by rfl)]
    refine ⟨Nat.le_refl _, fun r hr => ?_, fun _ => by simp⟩
    cases List.mem_singleton.1 hr
    have h1 := hv k
    have h2 := hk k
    have h3 := hf k
    have h4 : k.length ≤ 250 := hu.2
    refine ⟨?_, ?_, ?_⟩ <;> simp only [useReq] at * <;> rw [h3] <;> simp <;> omega

/-- The result a call has according to the answers is its outcome. -/
theorem gives_outcome {u : Use} {s : Shelf} {rs : List Response} (hr : (shelfAnswer s (useReq u)).1 = .ok rs) {x : Res Said}
    (hg : Gives (protoOf u.kind) (askOf u) [rs] x) : x.map Said.toOut = (u.outcome s).1 := by
  cases u with
  | textSet i =>
    obtain ⟨s', e⟩ := shelf_store (u := .textSet i) (s := s) ⟨i, rfl⟩
    rw [e] at hr
    cases hr
    cases hg with
    | done => rfl
    | num => exact False.elim ‹Spec.Counting (Op.set i)›
  | metaSet i =>
    obtain ⟨s', e⟩ := shelf_store (u := .metaSet i) (s := s) ⟨i, rfl⟩
    rw [e] at hr
    cases hr
    cases hg with
    | done => rfl
    | num => exact False.elim ‹Spec.Counting (Op.set i)›
  | binSet h i =>
    obtain ⟨s', e⟩ := shelf_store (u := .binSet h i) (s := s) ⟨i, rfl⟩
    rw [e] at hr
    cases hr
    cases hg with
    | done => exact absurd rfl ‹_ ≠ Proto.binary›
    | binDone => rfl
    | num => exact False.elim ‹Spec.Counting (Op.set i)›
    | binNum => exact False.elim ‹Spec.Counting (Op.set i)›
  | metaGet k =>
    rw [shelf_answer (u := .metaGet k) (s := s) ⟨k, rfl⟩] at hr
    cases hr
    cases hg with
    | metaHit =>
      simp only [useReq, metaGetReq, Use.outcome]
      cases s.value k <;> rfl
    | done => exact False.elim ‹Silent (Op.get k)›
    | num => exact False.elim ‹Spec.Counting (Op.get k)›
  | binGet h k =>
    rw [shelf_answer (u := .binGet h k) (s := s) ⟨k, rfl⟩] at hr
    cases hr
    cases hg with
    | binHit =>
      simp only [useReq, Use.outcome]
      cases s.value k <;> rfl
    | done => exact False.elim ‹Silent (Op.get k)›
    | binDone => exact False.elim ‹Silent (Op.get k)›
    | num => exact False.elim ‹Spec.Counting (Op.get k)›
    | binNum => exact False.elim ‹Spec.Counting (Op.get k)›

end Joint
end Verif
