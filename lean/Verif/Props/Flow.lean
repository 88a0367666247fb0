import Verif.Spec.Flow
import Verif.Lemmas.Online
import Verif.Lemmas.OnlineBin
import Verif.Props.ServeLoop
import Verif.Props.Accept
/-!
C77: the connection holds only so many bytes in each direction.
-/

namespace Verif
namespace Flow
open Kv Srv

variable {σ : Type}

theorem Replies.append {P : Peer σ} (hP : Framed P) {s s' : σ} {i o rest : Bytes} (h : Replies P s i o s' rest)
    (more : Bytes) : Replies P s (i ++ more) o s' (rest ++ more) := by
  induction h with
  | done s i => exact .done _ _
  | more h _ ih => exact .more (hP.append _ _ _ _ _ _ h) ih

theorem Replies.trans {P : Peer σ} {s s1 s' : σ} {i i1 o o1 rest : Bytes} (h : Replies P s i o s1 i1)
    (h' : Replies P s1 i1 o1 s' rest) : Replies P s i (o ++ o1) s' rest := by
  induction h with
  | done s i => exact h'
  | more h _ ih => rw [List.append_assoc]; exact .more h (ih h')

/-- Of two ways to answer the beginning of the same input, the one that cannot go on has answered at least as much. -/
theorem Replies.max {P : Peer σ} {s s1 s2 : σ} {i o1 o2 r1 r2 : Bytes} (h1 : Replies P s i o1 s1 r1)
    (h2 : Replies P s i o2 s2 r2) (hn : P.next s2 r2 = none) : o1 <+: o2 := by
  induction h1 generalizing o2 with
  | done s i => exact List.nil_prefix
  | more h _ ih =>
    cases h2 with
    | done => rw [hn] at h; cases h
    | more h' h2' =>
      rw [h] at h'
      obtain ⟨rfl, rfl, rfl⟩ : _ ∧ _ ∧ _ := by simpa using h'
      obtain ⟨t, ht⟩ := ih h2'
      exact ⟨t, by rw [List.append_assoc, ht]⟩

theorem Replies.unique {P : Peer σ} {s s1 s2 : σ} {i o1 o2 r1 r2 : Bytes} (h1 : Replies P s i o1 s1 r1)
    (h2 : Replies P s i o2 s2 r2) (hn1 : P.next s1 r1 = none) (hn2 : P.next s2 r2 = none) :
    o1 = o2 ∧ s1 = s2 ∧ r1 = r2 := by
  induction h1 generalizing o2 with
  | done s i =>
    cases h2 with
    | done => exact ⟨rfl, rfl, rfl⟩
    | more h' => rw [hn1] at h'; cases h'
  | more h _ ih =>
    cases h2 with
    | done => rw [hn2] at h; cases h
    | more h' h2' =>
      rw [h] at h'
      obtain ⟨rfl, rfl, rfl⟩ : _ ∧ _ ∧ _ := by simpa using h'
      obtain ⟨rfl, rfl, rfl⟩ := ih h2' hn1
      exact ⟨rfl, rfl, rfl⟩

/-- What is true of an operation under way; `t` is what the server has read of the request `w`. -/
structure Inv (P : Peer σ) (R : Room) (s : σ) (w : Bytes) (n : Net σ) (t : Bytes) : Prop where
  parts : w = t ++ n.up ++ n.toSend
  replies : Replies P s t (n.heard ++ n.down ++ n.owed) n.srv n.got
  up : n.up.length ≤ R.up
  down : n.down.length ≤ R.down
  deaf : n.toSend ≠ [] → n.heard = []

theorem inv_start (P : Peer σ) (R : Room) (s : σ) (w : Bytes) : Inv P R s w (start s w) [] :=
  ⟨rfl, .done _ _, Nat.zero_le _, Nat.zero_le _, fun _ => rfl⟩

theorem inv_step {P : Peer σ} (hP : Framed P) {R : Room} {s : σ} {w t : Bytes} {n n' : Net σ} (h : Inv P R s w n t)
    (hs : Step P R n n') : ∃ t', Inv P R s w n' t' := by
  obtain ⟨h1, h2, h3, h4, h5⟩ := h
  cases hs with
  | send x u hu hr =>
    exact ⟨t, by rw [h1, hu]; simp, h2, by simp; omega, h4, fun _ => h5 (by rw [hu]; simp)⟩
  | take a b hab ha hl ho hn =>
    exact ⟨t ++ a, by rw [h1, hab]; simp, h2.append hP a, by rw [hab] at h3; simp at h3 ⊢; omega, h4, h5⟩
  | handle o s' rest ho hn =>
    refine ⟨t, h1, ?_, h3, h4, h5⟩
    rw [ho, List.append_nil] at h2
    have := h2.trans (.more hn (.done s' rest))
    simpa using this
  | reply x u hu hr =>
    refine ⟨t, h1, ?_, h3, by simp; omega, h5⟩
    rw [hu] at h2
    simpa using h2
  | hear x u hts hd =>
    refine ⟨t, h1, ?_, h3, by rw [hd] at h4; simp at h4 ⊢; omega, fun hne => absurd hts hne⟩
    rw [hd] at h2
    simpa using h2

theorem inv_reach {P : Peer σ} (hP : Framed P) {R : Room} {s : σ} {w : Bytes} {n : Net σ}
    (h : Reach P R (start s w) n) : ∃ t, Inv P R s w n t := by
  induction h with
  | start => exact ⟨[], inv_start P R s w⟩
  | step _ hs ih => obtain ⟨t, ht⟩ := ih; exact inv_step hP ht hs

/-- **C77 (how it ends).** An operation on which nothing can happen any more is through, or client and server wait for
each other. -/
theorem C77_ends {P : Peer σ} (hP : Framed P) {R : Room} (hR : R.Some) {s : σ} {w : Bytes} {n : Net σ}
    (h : Reach P R (start s w) n) : Stuck P R n ↔ Through P s w n ∨ Locked R n := by
  obtain ⟨t, h1, h2, h3, h4, h5⟩ := inv_reach hP h
  constructor
  · intro hst
    cases hts : n.toSend with
    | cons x u =>
      have hup : n.up.length = R.up := by
        apply Classical.byContradiction; intro hne
        exact hst _ (.send n x u hts (by omega))
      cases ho : n.owed with
      | cons y v =>
        have hd : n.down.length = R.down := by
          apply Classical.byContradiction; intro hne
          exact hst _ (.reply n y v ho (by omega))
        exact .inr ⟨by rw [hts]; simp, hup, by rw [ho]; simp, hd, h5 (by rw [hts]; simp)⟩
      | nil =>
        exfalso
        cases hn : P.next n.srv n.got with
        | some q => obtain ⟨o, s', r⟩ := q; exact hst _ (.handle n o s' r ho hn)
        | none =>
          cases hu : n.up with
          | nil => rw [hu] at hup; have := hR.1; simp at hup; omega
          | cons z b => exact hst _ (.take n [z] b (by rw [hu]; rfl) (by simp) (by have := hR.2.2; simp; omega) ho hn)
    | nil =>
      left
      have hd : n.down = [] := by
        cases hd : n.down with
        | nil => rfl
        | cons x u => exact absurd (Step.hear n x u hts hd) (hst _)
      have ho : n.owed = [] := by
        cases ho : n.owed with
        | nil => rfl
        | cons x u => exact absurd (Step.reply n x u ho (by rw [hd]; exact hR.2.1)) (hst _)
      have hn : P.next n.srv n.got = none := by
        cases hn : P.next n.srv n.got with
        | none => rfl
        | some q => obtain ⟨o, s', r⟩ := q; exact absurd (Step.handle n o s' r ho hn) (hst _)
      have hu : n.up = [] := by
        cases hu : n.up with
        | nil => rfl
        | cons z b =>
          exact absurd (Step.take n [z] b (by rw [hu]; rfl) (by simp) (by have := hR.2.2; simp; omega) ho hn) (hst _)
      refine ⟨hts, hu, ho, hd, hn, ?_⟩
      rw [hd, ho] at h2
      rw [hts, hu] at h1
      simp at h1 h2
      rw [h1]; exact h2
  · rintro (⟨hts, hu, ho, hd, hn, _⟩ | ⟨hts, hu, ho, hd, _⟩) n' hs
    · cases hs with
      | send x u e => rw [hts] at e; cases e
      | take a b e ha => rw [hu] at e; exact ha (List.append_eq_nil_iff.1 e.symm).1
      | handle o s' r _ e => rw [hn] at e; cases e
      | reply x u e => rw [ho] at e; cases e
      | hear x u _ e => rw [hd] at e; cases e
    · cases hs with
      | send x u e hr => omega
      | take a b e ha hl e' => exact ho e'
      | handle o s' r e => exact ho e
      | reply x u e hr => omega
      | hear x u e => exact hts e

/-- **C77 (no endless runs).** Every operation gets to such a state: there is no endless run. -/
theorem C77_finite {P : Peer σ} (hP : Framed P) (R : Room) :
    ¬ ∃ f : Nat → Net σ, ∀ i, Step P R (f i) (f (i + 1)) := by
  have key : WellFounded (fun b a : Net σ => Step P R a b) := by
    have wf := (inferInstance : WellFoundedRelation (Nat × Nat × Nat × Nat × Nat)).wf
    refine Subrelation.wf ?_ (InvImage.wf (fun n : Net σ =>
      (n.toSend.length, n.up.length, n.got.length, n.owed.length, n.down.length)) wf)
    intro b a hs
    cases hs with
    | send x u hu hr => exact Prod.Lex.left _ _ (by show (_ : Nat) < _; rw [hu]; simp)
    | take u v huv hu hl ho hn =>
      refine Prod.Lex.right _ (Prod.Lex.left _ _ ?_)
      show (_ : Nat) < _
      rw [huv]
      have := List.length_pos_iff.2 hu
      simp; omega
    | handle o s' rest ho hn =>
      exact Prod.Lex.right _ (Prod.Lex.right _ (Prod.Lex.left _ _ (hP.shorter _ _ _ _ _ hn)))
    | reply x u hu hr =>
      refine Prod.Lex.right _ (Prod.Lex.right _ (Prod.Lex.right _ (Prod.Lex.left _ _ ?_)))
      show (_ : Nat) < _
      rw [hu]; simp
    | hear x u hts hd =>
      refine Prod.Lex.right _ (Prod.Lex.right _ (Prod.Lex.right _ (Prod.Lex.right _ ?_)))
      show (_ : Nat) < _
      rw [hd]; simp
  rintro ⟨f, hf⟩
  have : ∀ n, Acc (fun b a : Net σ => Step P R a b) n → ∀ i, f i = n → False := by
    intro n hn
    induction hn with
    | intro n _ ih => intro i hi; exact ih (f (i + 1)) (by rw [← hi]; exact hf i) _ rfl
  exact this _ (key.apply (f 0)) 0 rfl

/-- **C77 (replies that fit).** If the replies to all requests but those the client has not sent completely fit into the
connection, client and server never wait for each other, in however small pieces everything goes. -/
theorem C77_fits {P : Peer σ} (hP : Framed P) {R : Room} {s : σ} {w : Bytes} {n : Net σ}
    (hfit : ∀ t u o s' rest, w = t ++ u → u ≠ [] → Replies P s t o s' rest → o.length ≤ R.down)
    (h : Reach P R (start s w) n) : ¬ Locked R n := by
  rintro ⟨hts, hu, ho, hd, hh⟩
  obtain ⟨t, h1, h2, _⟩ := inv_reach hP h
  have := hfit t (n.up ++ n.toSend) _ _ _ (by rw [h1]; simp) (by simp [hts]) h2
  have hp := List.length_pos_iff.2 ho
  rw [hh] at this
  simp at this
  omega

/-- `w` is one request. -/
theorem fits_of_one {P : Peer σ} {s s' : σ} {w o : Bytes} (hP : Framed P) (hw : P.next s w = some (o, s', [])) (b : Nat)
    (t u o' : Bytes) (s1 : σ) (rest : Bytes) (e : w = t ++ u) (hu : u ≠ []) (h : Replies P s t o' s1 rest) :
    o'.length ≤ b := by
  cases h with
  | done => exact Nat.zero_le _
  | more h _ =>
    have := hP.append _ _ _ _ _ u h
    rw [← e, hw] at this
    simp only [Option.some.injEq, Prod.mk.injEq] at this
    exact absurd (List.append_eq_nil_iff.1 this.2.2.symm).2 hu

/-- **C77 (one request).** An operation that sends one request comes through, however little the connection holds: every
run ends, and then the client has the reply. -/
theorem C77_one {P : Peer σ} (hP : Framed P) {R : Room} (hR : R.Some) {s s' : σ} {w o : Bytes}
    (hw : P.next s w = some (o, s', [])) (hn : P.next s' [] = none) {n : Net σ} (h : Reach P R (start s w) n) :
    (Stuck P R n ↔ Through P s w n) ∧ (Stuck P R n → n.heard = o ∧ n.srv = s' ∧ n.got = []) := by
  have hl := C77_fits hP (fits_of_one hP hw R.down) h
  have h1 := C77_ends hP hR h
  have h2 : Stuck P R n ↔ Through P s w n := by
    rw [h1]; exact ⟨fun h => h.elim id (fun h => absurd h hl), .inl⟩
  refine ⟨h2, fun hst => ?_⟩
  obtain ⟨_, _, _, _, hnn, hr⟩ := h2.1 hst
  have hr' : Replies P s w (o ++ []) s' [] := .more hw (.done _ _)
  obtain ⟨a, b, c⟩ := hr.unique hr' hnn hn
  exact ⟨by simpa using a, b, c⟩

/-- **C77 (everything fits).** If all the replies together fit into the connection, the operation comes through. -/
theorem C77_all_fit {P : Peer σ} (hP : Framed P) {R : Room} (hR : R.Some) {s s' : σ} {w o : Bytes}
    (hw : Replies P s w o s' []) (hn : P.next s' [] = none) (hl : o.length ≤ R.down) {n : Net σ}
    (h : Reach P R (start s w) n) :
    (Stuck P R n ↔ Through P s w n) ∧ (Stuck P R n → n.heard = o ∧ n.srv = s' ∧ n.got = []) := by
  have hl := C77_fits hP (fun t u o' s1 rest e hu hr => by
    have := ((hr.append hP u).max (e ▸ hw) hn).length_le
    omega) h
  have h2 : Stuck P R n ↔ Through P s w n := by
    rw [C77_ends hP hR h]; exact ⟨fun h => h.elim id (fun h => absurd h hl), .inl⟩
  refine ⟨h2, fun hst => ?_⟩
  obtain ⟨_, _, _, _, hnn, hr⟩ := h2.1 hst
  exact hr.unique hw hnn hn

/-- **C77 (too much).** If the replies to the first part of the request do not fit into the connection and the rest of
the request does not fit into the other direction, the client never gets its request off: every run ends with client
and server waiting for each other. -/
theorem C77_too_much {P : Peer σ} (hP : Framed P) {R : Room} (hR : R.Some) {s s1 : σ} {u v o rest : Bytes}
    (hu : Replies P s u o s1 rest) (ho : R.down < o.length) (hv : R.up + R.ahead ≤ v.length) {n : Net σ}
    (h : Reach P R (start s (u ++ v)) n) : n.toSend ≠ [] ∧ n.heard = [] ∧ (Stuck P R n ↔ Locked R n) := by
  have key : ∃ t, Inv P R s (u ++ v) n t ∧ (t.length < u.length + R.ahead) := by
    induction h with
    | start =>
      refine ⟨[], inv_start P R s _, ?_⟩
      have := hR.2.2
      simp; omega
    | step hr hs ih =>
      rename_i n n'
      obtain ⟨t, hi, ht⟩ := ih
      have hts : n.toSend ≠ [] := by
        intro e
        have := congrArg List.length hi.parts
        rw [e] at this
        have h3 := hi.up
        simp at this
        omega
      obtain ⟨h1, h2, h3, h4, h5⟩ := hi
      cases hs with
      | send x u' hu hr =>
        exact ⟨t, ⟨by rw [h1, hu]; simp, h2, by simp; omega, h4, fun _ => h5 (by rw [hu]; simp)⟩, ht⟩
      | take a b hab ha hl ho' hn =>
        refine ⟨t ++ a, ⟨by rw [h1, hab]; simp, h2.append hP a, by rw [hab] at h3; simp at h3 ⊢; omega, h4, h5⟩, ?_⟩
        have : t.length < u.length := by
          apply Classical.byContradiction; intro hge
          have hp : u <+: t := by
            refine List.prefix_of_prefix_length_le (l₃ := u ++ v) (List.prefix_append _ _) ?_ (by omega)
            rw [h1, List.append_assoc]; exact List.prefix_append _ _
          obtain ⟨t', rfl⟩ := hp
          have hq := (hu.append hP t').max h2 hn
          rw [ho', h5 hts] at hq
          have := hq.length_le
          simp at this
          omega
        simp; omega
      | handle o' s' rest ho' hn =>
        refine ⟨t, ⟨h1, ?_, h3, h4, h5⟩, ht⟩
        rw [ho', List.append_nil] at h2
        have := h2.trans (.more hn (.done s' rest))
        simpa using this
      | reply x u' hu hr =>
        refine ⟨t, ⟨h1, ?_, h3, by simp; omega, h5⟩, ht⟩
        rw [hu] at h2
        simpa using h2
      | hear x u' e hd => exact absurd e hts
  obtain ⟨t, hi, ht⟩ := key
  have hts : n.toSend ≠ [] := by
    intro e
    have := congrArg List.length hi.parts
    rw [e] at this
    have h3 := hi.up
    simp at this
    omega
  refine ⟨hts, hi.deaf hts, ?_⟩
  rw [C77_ends hP hR h]
  exact ⟨fun h => h.elim (fun h => absurd h.1 hts) id, .inr⟩

/-! ### the servers -/

theorem framed_memcached : Framed memcached where
  append _ _ _ _ _ more h := Mc.step_append h more
  shorter _ _ _ _ _ h := Mc.step_lt h

theorem framed_memcachedBinary (te : Entry → Bytes) : Framed (memcachedBinary te) where
  append _ _ _ _ _ more h := McBin.step1_append (te := te) h more
  shorter _ _ _ _ _ h := McBin.step1_lt (te := te) h

theorem server_next {h : Handler σ} {s s' : Option Protocol × σ} {i o rest : Bytes}
    (e : (server h).next s i = some (o, s', rest)) :
    ∃ q req res, readRequest s.1 i = (.ok (q, req), rest) ∧ h s.2 req = (.ok res, s'.2)
      ∧ writeResponse q req res = .ok o ∧ s'.1 = some q := by
  unfold server at e
  simp only at e
  split at e
  · rename_i q req r hr
    split at e
    · rename_i res s1 hh
      split at e
      · rename_i b hw
        cases e
        exact ⟨q, req, res, hr, hh, hw, rfl⟩
      · cases e
    · cases e
  · cases e

theorem next_server {h : Handler σ} {s : Option Protocol × σ} {s' : σ} {i o rest : Bytes} {q : Protocol} {req : Request}
    {res : List Response} (h1 : readRequest s.1 i = (.ok (q, req), rest)) (h2 : h s.2 req = (.ok res, s'))
    (h3 : writeResponse q req res = .ok o) : (server h).next s i = some (o, (some q, s'), rest) := by
  unfold server
  simp only [h1, h2, h3]

theorem framed_server (h : Handler σ) : Framed (server h) where
  append s i o s' rest more e := by
    obtain ⟨q, req, res, h1, h2, h3, h4⟩ := server_next e
    have := Props.stable_readRequest' s.1 i more
    rw [h1] at this
    have h1' := this (by simp)
    rw [next_server h1' h2 h3, ← h4]
  shorter s i o s' rest e := by
    obtain ⟨q, req, res, h1, _⟩ := server_next e
    exact readRequest_lt h1

end Flow
end Verif
