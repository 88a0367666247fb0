import Verif.Props.JointFinite
import Verif.Props.JointSim
/-!
C83, continued: the whole with a router in it comes to rest.
-/

namespace Verif
namespace Joint
open Srv Srv.Accept Spec Props
open Pool (Hashes)
open Cluster (ReplicaPool Prog)
open Proxy (Desk process)

variable {T : Type} [DecidableEq T] {S : Type} [DecidableEq S]

/-! ### How many calls a method still makes -/

/-- At most `n` calls. -/
def Short : Nat → Prog S → Prop
  | _, .ret _ => True
  | 0, .call _ _ _ => False
  | n + 1, .call _ _ k => ∀ x, Short n (k x)

omit [DecidableEq S] in
theorem short_ret (n : Nat) (x : Res Out) : Short n (.ret x : Prog S) := by cases n <;> trivial

omit [DecidableEq S] in
theorem short_more : ∀ {n : Nat} {pr : Prog S}, Short n pr → Short (n + 1) pr
  | _, .ret _, _ => trivial
  | 0, .call _ _ _, h => h.elim
  | _ + 1, .call _ _ _, h => fun x => short_more (h x)

open Classical in
/-- How many calls, if at most two. -/
noncomputable def depth (pr : Prog S) : Nat := if Short 0 pr then 0 else if Short 1 pr then 1 else 2

omit [DecidableEq S] in
theorem depth_le (pr : Prog S) : depth pr ≤ 2 := by
  unfold depth
  split
  · omega
  · split <;> omega

omit [DecidableEq S] in
theorem depth_lt {s : S} {op : Op} {k : Res Out → Prog S} (h : Short 2 (.call s op k)) (x : Res Out) :
    Short 2 (k x) ∧ depth (k x) < depth (.call s op k) := by
  have h1 : Short 1 (k x) := h x
  refine ⟨short_more h1, ?_⟩
  have h0 : ¬ Short 0 (.call s op k) := fun h => h
  unfold depth
  rw [if_neg h0]
  by_cases h2 : Short 1 (.call s op k)
  · rw [if_pos h2, if_pos (show Short 0 (k x) from h2 x)]
    omega
  · rw [if_neg h2, if_pos h1]
    split <;> omega

omit [DecidableEq S] in
theorem short_then {α : Type} {out : Out → Option α} {f : α → Prog S} {n : Nat} (h : ∀ a, Short n (f a)) (x : Res Out) :
    Short n (Cluster.andThen out f x) := by
  unfold Cluster.andThen
  cases x with
  | ok y =>
    cases ho : out y with
    | none => simp only [ho]; exact short_ret _ _
    | some a => simp only [ho]; exact h a
  | err e => exact short_ret _ _
  | panic => exact short_ret _ _

omit [DecidableEq S] in
theorem short_pick {p : Res S} {f : S → Prog S} {n : Nat} (h : ∀ s, Short n (f s)) : Short n (Cluster.onPick p f) := by
  unfold Cluster.onPick
  cases p with
  | ok s => exact h s
  | err e => exact short_ret _ _
  | panic => exact short_ret _ _

omit [DecidableEq S] in
theorem short_begin (H : Hashes) (r : ReplicaPool S) (req : Request) : Short 2 (Proxy.begin H r req).prog := by
  unfold Proxy.begin
  split
  · refine short_pick fun p => ?_
    exact fun x => short_then (fun a => short_ret 1 _) x
  · split
    · cases req.setOpt with
      | none => exact short_ret _ _
      | some o =>
        refine short_pick fun p => ?_
        refine fun x => short_then (fun a => ?_) x
        refine short_pick fun q => ?_
        exact fun x => short_then (fun a => short_ret 0 _) x
    · exact short_ret _ _

/-! ### The router while no time passes -/

/-- The router's process while no time passes. -/
def still (H : Hashes) (r : ReplicaPool S) : Concurrent (Desk S) where
  call := (process H r).call
  step d d' := ∃ c s op f fin, d.tasks c = some ⟨.call s op f, fin⟩ ∧
        d' = { world := (Cluster.callStep s op d.world).2
               tasks := fun x => if x = c then some ⟨f (Cluster.callStep s op d.world).1, fin⟩ else d.tasks x
               calls := d.calls + 1 }
  ret := (process H r).ret

/-- What it owes a connection. -/
noncomputable def deskOwes (d : Desk S) (c : Nat) : Nat :=
  match d.tasks c with
  | none => 0
  | some t => depth t.prog + 1

/-- Tasks make at most two calls. -/
def Modest (d : Desk S) : Prop := ∀ c t, d.tasks c = some t → Short 2 t.prog

theorem still_winds (H : Hashes) (r : ReplicaPool S) : Winds (still H r) Modest deskOwes where
  call s c req hJ := by
    refine ⟨fun x t hx => ?_, ?_, fun d hd => ?_⟩
    · have hx : (if x = c then some (Proxy.begin H r req) else s.tasks x) = some t := hx
      by_cases hc : x = c
      · rw [if_pos hc] at hx; cases hx; exact short_begin H r req
      · rw [if_neg hc] at hx; exact hJ x t hx
    · show deskOwes { s with tasks := fun x => if x = c then some (Proxy.begin H r req) else s.tasks x } c ≤ 3
      simp only [deskOwes, if_true]
      have := depth_le (Proxy.begin H r req).prog
      omega
    · show deskOwes { s with tasks := fun x => if x = c then some (Proxy.begin H r req) else s.tasks x } d = _
      simp only [deskOwes, if_neg hd]
  step s s' hJ hs := by
    obtain ⟨c, sv, op, f, fin, ht, rfl⟩ := hs
    have hsh := hJ c _ ht
    have hd := depth_lt hsh (Cluster.callStep sv op s.world).1
    refine ⟨fun x t hx => ?_, c, ?_, fun d hd => ?_⟩
    · have hx : (if x = c then some ⟨f (Cluster.callStep sv op s.world).1, fin⟩ else s.tasks x) = some t := hx
      by_cases hc : x = c
      · rw [if_pos hc] at hx; cases hx; exact hd.1
      · rw [if_neg hc] at hx; exact hJ x t hx
    · simp only [deskOwes, if_true, ht]
      have := hd.2
      omega
    · simp only [deskOwes, if_neg hd]
  ret s c x s' hJ hs := by
    obtain ⟨y, fin, ht, _, rfl⟩ := hs
    refine ⟨fun z t hz => ?_, ?_, fun d hd => ?_⟩
    · have hz : (if z = c then none else s.tasks z) = some t := hz
      by_cases hc : z = c
      · rw [if_pos hc] at hz; cases hz
      · rw [if_neg hc] at hz; exact hJ z t hz
    · simp only [deskOwes, if_true, ht]
      omega
    · simp only [deskOwes, if_neg hd]

variable {H : Hashes} {r : ReplicaPool S} {w0 : Pool.World S} {P : Nat → Sched.Params T}

theorem still_step {w u : Accept.World (Desk S)} {who : Who} (hs : Accept.Step (process H r) w who u)
    (hclock : ∀ s, (u.state.world s).now = (w.state.world s).now) : u = w ∨ Accept.Step (still H r) w who u := by
  by_cases hw : who = .handler
  · subst hw
    cases hs with
    | work s up hs =>
      rcases hs with ⟨n, rfl⟩ | hs
      · refine .inl ?_
        have : Pool.World.tick w.state.world n = w.state.world := by
          funext s
          have h1 : (w.state.world s).now + n = (w.state.world s).now := hclock s
          have h2 : n = 0 := by omega
          subst h2
          rfl
        rw [this]
      · exact .inr (.work w s up hs)
  · obtain ⟨t', h1, h2⟩ := replace (K := still H r) (R := fun s t => t = s) (t := w.state)
      (fun s t c req h => by subst h; rfl) (fun s t c x s' h hr => by subst h; exact ⟨s', hr, rfl⟩) hs hw rfl
    subst h2
    exact .inr h1

theorem still_moves {q q' : State T (Desk S)} (hm : RouterMoves P H r q q') : Moves P (still H r) q q' := by
  obtain ⟨⟨hs, hne, h3, h4, h5, h6, h7⟩, hclock⟩ := hm
  refine ⟨?_, hne, h3, h4, h5, h6, h7⟩
  cases hs with
  | user c s' h => exact .user q c s' h
  | server who w' h net =>
    rcases still_step h hclock with he | h'
    · exact absurd (by rw [he]) hne
    · exact .server q who w' h' net

theorem moves_router {q q' : State T (Desk S)} (hm : Moves P (still H r) q q') :
    Moves P (process H r) q q' := by
  obtain ⟨hs, hne, h3, h4, h5, h6, h7⟩ := hm
  refine ⟨?_, hne, h3, h4, h5, h6, h7⟩
  cases hs with
  | user c s' h => exact .user q c s' h
  | server who w' h net =>
    refine .server q who w' ?_ net
    by_cases hw : who = .handler
    · subst hw
      cases h with
      | work s up hs => exact .work q.server s up (.inr hs)
    · obtain ⟨t', h1, h2⟩ := replace (K := process H r) (R := fun s t => t = s) (t := q.server.state)
        (fun s t c req h => by subst h; rfl) (fun s t c x s' h hr => by subst h; exact ⟨s', hr, rfl⟩) h hw rfl
      subst h2
      exact h1

/-! ### Commands take no time -/

theorem store_now (s : Kv.Store) (m : Kv.Mode) (k v : Bytes) (f : Nat) (e : Int) : (s.store m k v f e).2.now = s.now := by
  unfold Kv.Store.store
  cases m <;> cases s.find k <;> try rfl
  simp only
  split <;> rfl

theorem exec_now (s : Kv.Store) (c : Mc.Cmd) : (Mc.exec s c).2.now = s.now := by
  cases c with
  | store m key flags exp value => exact store_now _ _ _ _ _ _
  | ms key flags exp cas value => exact store_now _ _ _ _ _ _
  | delete key =>
    show (s.delete key).2.now = _
    unfold Kv.Store.delete
    split <;> rfl
  | md key =>
    show (s.delete key).2.now = _
    unfold Kv.Store.delete
    split <;> rfl
  | touch key exp =>
    show (s.touch key exp).2.now = _
    unfold Kv.Store.touch
    split <;> rfl
  | arith up key d =>
    show (s.arith up key d).2.now = _
    unfold Kv.Store.arith
    split
    · rfl
    · split <;> rfl
  | _ => rfl

theorem answerLoop_now : ∀ (n : Nat) {s : Kv.Store} {i reply : Bytes} {s' : Kv.Store}, Mc.answerLoop n s i = some (reply, s') → s'.now = s.now
  | 0, s, [], reply, s', h => by simp only [Mc.answerLoop] at h; cases h; rfl
  | 0, s, _ :: _, reply, s', h => by simp only [Mc.answerLoop] at h; cases h
  | n + 1, s, [], reply, s', h => by simp only [Mc.answerLoop] at h; cases h; rfl
  | n + 1, s, b :: i, reply, s', h => by
    simp only [Mc.answerLoop] at h
    cases hst : Mc.step s (b :: i) with
    | none => rw [hst] at h; cases h
    | some z =>
      obtain ⟨re, s1, rest⟩ := z
      rw [hst] at h
      simp only [Option.map_eq_some_iff] at h
      obtain ⟨⟨x, y⟩, h1, h2⟩ := h
      cases h2
      rw [answerLoop_now n h1]
      unfold Mc.step at hst
      split at hst
      · cases hst; exact exec_now _ _
      · cases hst; rfl
      · cases hst

theorem exchange_now {c : Call Out} {s : Kv.Store} {x : Res Out} {s' : Kv.Store} (h : Mc.exchange c s = some (x, s')) : s'.now = s.now := by
  unfold Mc.exchange at h
  split at h
  · split at h
    · rename_i ha
      split at h
      · split at h
        · cases h
        · cases h; exact answerLoop_now _ ha
      · cases h
    · cases h
  · cases h

theorem callStep_now (s : S) (op : Spec.Op) (w : Pool.World S) (x : S) : ((Cluster.callStep s op w).2 x).now = (w x).now := by
  unfold Cluster.callStep Pool.callOn
  have upd : ∀ st : Kv.Store, st.now = (w s).now → (Pool.World.update w s st x).now = (w x).now := by
    intro st h
    unfold Pool.World.update
    by_cases hx : x = s
    · rw [if_pos hx, h, hx]
    · rw [if_neg hx]
  cases he : Mc.exchange (Mc.metaCall op) (w s) with
  | none => simp only [he]
  | some z =>
    obtain ⟨y, st⟩ := z
    have := upd st (exchange_now he)
    cases y <;> simp only [he] <;> exact this

theorem still_clock {w u : Accept.World (Desk S)} {who : Who} (hs : Accept.Step (still H r) w who u) (s : S) :
    (u.state.world s).now = (w.state.world s).now := by
  have ret : ∀ {c : Nat} {x : Res (List Response)} {d : Desk S}, (still H r).ret w.state c x d → (d.world s).now = (w.state.world s).now := by
    rintro c x d ⟨y, fin, _, _, rfl⟩
    rfl
  cases hs with
  | work d up hs =>
    obtain ⟨c, sv, op, f, fin, _, rfl⟩ := hs
    exact callStep_now sv op _ s
  | answer c k q req res d b up hk ho hb hs hwr => exact ret hs
  | answerLost c k q req res d b n up hk ho hb hs hwr => exact ret hs
  | refuse c k q req e d up hk ho hb hs => exact ret hs
  | unwritable c k q req res e d up hk ho hb hs hwr => exact ret hs
  | handlerCrash c k q req d up hk ho hb hs => exact ret hs
  | writeCrash c k q req res d up hk ho hb hs hwr => exact ret hs
  | _ => rfl

/-- The same moves. -/
theorem router_moves {q q' : State T (Desk S)} : RouterMoves P H r q q' ↔ Moves P (still H r) q q' := by
  refine ⟨still_moves, fun hm => ⟨moves_router hm, fun s => ?_⟩⟩
  have hs := hm.step
  cases hs with
  | user c s' h => rfl
  | server who w' h net => exact still_clock h s

theorem router_movesOn {q q' : State T (Desk S)} : RouterMovesOn P H r q q' ↔ MovesOn P (still H r) q q' := by
  constructor
  · intro h
    induction h with
    | refl => exact .refl
    | step _ hs ih => exact .step ih (router_moves.1 hs)
  · intro h
    induction h with
    | refl => exact .refl
    | step _ hs ih => exact .step ih (router_moves.2 hs)

theorem router_rests {q : State T (Desk S)} : RouterRests P H r q ↔ Rests P (still H r) q :=
  ⟨fun h q' hm => h q' (router_moves.2 hm), fun h q' hm => h q' (router_moves.1 hm)⟩

theorem _root_.Verif.Spec.RouterMovesOn.later {q q' : State T (Desk S)} (hm : RouterMovesOn P H r q q') : Later P (process H r) q q' := by
  induction hm with
  | refl => exact .refl
  | step _ hs ih => exact .step ih hs.moves.step

/-! ### The end -/

theorem router_within {q : State T (Desk S)} (hl : Later P (process H r) (init (Desk.init w0)) q) :
    ∃ cs ts, Within Modest deskOwes cs ts q := by
  refine within_of hl ?_
  induction hl with
  | refl => exact ⟨fun c t h => (by cases h), fun c _ => rfl⟩
  | @step v u hv hs ih =>
    cases hs with
    | user c s' h => exact ih
    | server who w' h net =>
      by_cases hw : who = .handler
      · subst hw
        cases h with
        | work s up hs =>
          rcases hs with ⟨n, rfl⟩ | hs
          · exact ih
          · exact owes_step (still_winds H r) (.work v.server s up hs) ih.1 ih.2
      · obtain ⟨t', h1, h2⟩ := replace (K := still H r) (R := fun s t => t = s) (t := v.server.state)
          (fun s t c req h => by subst h; rfl) (fun s t c x s' h hr => by subst h; exact ⟨s', hr, rfl⟩) h hw rfl
        subst h2
        exact owes_step (still_winds H r) h1 ih.1 ih.2

/-- **C83 (no endless runs).** Calls under way do not go on for ever, however many clients there are and whatever the
memcached servers hold: without new calls and new connections only finitely many things happen, apart from time passing. -/
theorem C83_finite {q : State T (Desk S)} (hl : Later P (process H r) (init (Desk.init w0)) q) :
    ¬ ∃ f : Nat → State T (Desk S), f 0 = q ∧ ∀ n, RouterMoves P H r (f n) (f (n + 1)) := by
  obtain ⟨cs, ts, hw⟩ := router_within hl
  rintro ⟨f, h0, hf⟩
  exact no_end (still_winds H r) hw ⟨f, h0, fun n => router_moves.1 (hf n)⟩

/-- **C83 (rest is reached).** However long a run has gone on, it can be continued until nothing more happens. -/
theorem C83_run_on {q : State T (Desk S)} (hl : Later P (process H r) (init (Desk.init w0)) q) :
    ∃ q', RouterMovesOn P H r q q' ∧ RouterRests P H r q' := by
  obtain ⟨cs, ts, hw⟩ := router_within hl
  obtain ⟨q', h1, h2⟩ := come_to_rest (P := P) (still_winds H r) hw
  exact ⟨q', router_movesOn.2 h1, router_rests.2 h2⟩

end Joint
end Verif
