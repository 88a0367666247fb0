import Verif.Client.Heartbeat
/-! C34: the heartbeat, in every schedule. -/

namespace Verif
namespace Props
open Heartbeat
open Life (Kind)

/-- Reachable from the start of the goroutine. -/
def HbReached (kind : Kind) (auto : Bool) (s : State) : Prop := ∃ n, Steps kind auto start n s

/-- The goroutine can do nothing. -/
def Blocked (kind : Kind) (auto : Bool) (s : State) : Prop := ∀ t, ¬ Step kind auto .hb s t

/-- What holds in every reachable state: counters follow the timer. -/
structure HbInv (kind : Kind) (auto : Bool) (s : State) : Prop where
  probes : s.probes = if s.timer = .drained then 1 else 0
  waiting : s.timer ≠ .drained → (s.hb = .select ∨ s.hb = .returned) ∧ s.reconnects = 0 ∧ s.closes = 0
  recs : s.reconnects ≤ 1 ∧ s.closes ≤ 1
  probing : s.hb = .version → s.reconnects = 0 ∧ s.closes = 0
  auto : (auto = false → s.reconnects = 0 ∧ s.hb ≠ .reconnect) ∧ (auto = true → s.closes = 0 ∧ s.hb ≠ .close)
  retry : s.hb = .reconnect → s.reconnects = 1
  shut : kind = .text → s.closes = 1 → s.hb = .close ∨ s.closed = true
  gone : kind ≠ .text → s.closed = false ∧ (s.hb = .returned → s.reconnects = 1)

theorem hbInv_step {kind : Kind} {auto : Bool} {w : Who} {s t : State} (h : HbInv kind auto s)
    (hs : Step kind auto w s t) : HbInv kind auto t := by
  obtain ⟨h1, h2, h3, h4, h5, h7, h8, h6⟩ := h
  cases hs with
  | fire _ ht =>
    have hw := h2 (by simp [ht])
    refine ⟨?_, fun _ => hw, h3, h4, h5, h7, h8, h6⟩
    simpa [ht] using h1
  | userClose =>
    refine ⟨h1, h2, h3, h4, h5, h7, fun hk _ => .inr (by simp [closeCh, hk]), fun hk => ?_⟩
    simpa [closeCh, hk] using h6 hk
  | other => exact ⟨h1, h2, h3, h4, h5, h7, h8, h6⟩
  | quit _ hb hc =>
    refine ⟨h1, fun ht => ⟨.inr rfl, (h2 ht).2⟩, h3, by simp, ?_, by simp, fun _ _ => .inr hc, fun hk => ?_⟩
    · exact ⟨fun ha => ⟨(h5.1 ha).1, by simp⟩, fun ha => ⟨(h5.2 ha).1, by simp⟩⟩
    · rw [(h6 hk).1] at hc; simp at hc
  | tick _ hb ht =>
    have hw := h2 (by simp [ht])
    refine ⟨?_, by simp, h3, fun _ => hw.2, ?_, by simp, fun _ hc => by simp [hw.2.2] at hc, fun hk => ⟨(h6 hk).1, by simp⟩⟩
    · simpa [ht] using h1
    · exact ⟨fun ha => ⟨(h5.1 ha).1, by simp⟩, fun ha => ⟨(h5.2 ha).1, by simp⟩⟩
  | probeOk _ hb =>
    have hd : s.timer = .drained := by
      by_cases h : s.timer = .drained
      · exact h
      · have := (h2 h).1; simp [hb] at this
    refine ⟨h1, fun hn => absurd hd hn, h3, by simp, ?_, by simp, fun hk hc => by simp [(h4 hb).2] at hc, fun hk => ⟨(h6 hk).1, by simp⟩⟩
    exact ⟨fun ha => ⟨(h5.1 ha).1, by simp⟩, fun ha => ⟨(h5.2 ha).1, by simp⟩⟩
  | probeRetry _ hb ha =>
    have hd : s.timer = .drained := by
      by_cases h : s.timer = .drained
      · exact h
      · have := (h2 h).1; simp [hb] at this
    have h0 := h4 hb
    refine ⟨h1, fun hn => absurd hd hn, ⟨by simp [h0.1], h3.2⟩, by simp, ?_, fun _ => by simp [h0.1], fun hk hc => by simp [h0.2] at hc, fun hk => ⟨(h6 hk).1, by simp⟩⟩
    exact ⟨fun hf => by rw [ha] at hf; simp at hf, fun ha => ⟨(h5.2 ha).1, by simp⟩⟩
  | probeGiveUp _ hb ha =>
    have hd : s.timer = .drained := by
      by_cases h : s.timer = .drained
      · exact h
      · have := (h2 h).1; simp [hb] at this
    have h0 := h4 hb
    refine ⟨h1, fun hn => absurd hd hn, ⟨h3.1, by simp [h0.2]⟩, by simp, ?_, by simp, fun _ _ => .inl rfl, fun hk => ⟨(h6 hk).1, by simp⟩⟩
    exact ⟨fun ha => ⟨(h5.1 ha).1, by simp⟩, fun hf => by rw [ha] at hf; simp at hf⟩
  | reconnectOk _ hb =>
    have hd : s.timer = .drained := by
      by_cases h : s.timer = .drained
      · exact h
      · have := (h2 h).1; simp [hb] at this
    refine ⟨h1, fun hn => absurd hd hn, h3, by simp, ?_, by simp, fun hk hc => .inr (by simpa [hb] using h8 hk hc), fun hk => ⟨(h6 hk).1, by simp⟩⟩
    exact ⟨fun ha => ⟨(h5.1 ha).1, by simp⟩, fun ha => ⟨(h5.2 ha).1, by simp⟩⟩
  | reconnectErr _ hb =>
    have hd : s.timer = .drained := by
      by_cases h : s.timer = .drained
      · exact h
      · have := (h2 h).1; simp [hb] at this
    refine ⟨h1, fun hn => absurd hd hn, h3, by simp, ?_, by simp, fun hk hc => .inr (by simpa [hb] using h8 hk hc), fun hk => ⟨(h6 hk).1, fun _ => ?_⟩⟩
    · exact ⟨fun ha => ⟨(h5.1 ha).1, by simp⟩, fun ha => ⟨(h5.2 ha).1, by simp⟩⟩
    · exact h7 hb
  | closeDone _ hb =>
    have hd : s.timer = .drained := by
      by_cases h : s.timer = .drained
      · exact h
      · have := (h2 h).1; simp [hb] at this
    refine ⟨h1, fun hn => absurd hd hn, h3, by simp, ?_, by simp, fun hk _ => .inr (by simp [closeCh, hk]), fun hk => ⟨?_, by simp⟩⟩
    · exact ⟨fun ha => ⟨(h5.1 ha).1, by simp⟩, fun ha => ⟨(h5.2 ha).1, by simp⟩⟩
    · simpa [closeCh, hk] using (h6 hk).1

theorem hbInv_steps {kind : Kind} {auto : Bool} {n : Nat} {s t : State} (h : HbInv kind auto s)
    (hs : Steps kind auto s n t) : HbInv kind auto t := by
  induction hs with
  | refl => exact h
  | hb _ hst ih => exact hbInv_step ih hst
  | world _ hst ih => exact hbInv_step ih hst

theorem HbReached.inv {kind : Kind} {auto : Bool} {s : State} (h : HbReached kind auto s) : HbInv kind auto s := by
  obtain ⟨n, h⟩ := h
  refine hbInv_steps ?_ h
  refine ⟨rfl, ?_, ?_, ?_, ?_, ?_, ?_, ?_⟩ <;> simp [start]

theorem HbReached.steps {kind : Kind} {auto : Bool} {n : Nat} {s t : State} (h : HbReached kind auto s)
    (hs : Steps kind auto s n t) : HbReached kind auto t := by
  obtain ⟨m, h⟩ := h
  induction hs with
  | refl => exact ⟨m, h⟩
  | hb _ hst ih => obtain ⟨k, ih⟩ := ih; exact ⟨k + 1, ih.hb hst⟩
  | world _ hst ih => obtain ⟨k, ih⟩ := ih; exact ⟨k, ih.world hst⟩

/-- C34: whatever the schedule and however long the program runs, the heartbeat probes the connection at
most once, reconnects at most once and closes at most once. -/
theorem C34_one_probe (kind : Kind) (auto : Bool) (s : State) (h : HbReached kind auto s) :
    s.probes ≤ 1 ∧ s.reconnects ≤ 1 ∧ s.closes ≤ 1 := by
  have hi := h.inv
  refine ⟨?_, hi.recs⟩
  rw [hi.probes]
  split <;> omega

/-- C34: the probe does happen: once the interval has passed the goroutine can begin it, unless it has
begun it before or has seen the connection closed. -/
theorem C34_probed (kind : Kind) (auto : Bool) (s : State) (h : HbReached kind auto s) (ht : s.timer ≠ .armed) :
    s.probes = 1 ∨ s.hb = .returned ∨ ∃ t, Step kind auto .hb s t ∧ t.hb = .version ∧ t.probes = 1 := by
  have hi := h.inv
  by_cases hd : s.timer = .drained
  · left; rw [hi.probes, if_pos hd]
  · have hf : s.timer = .fired := by cases hs : s.timer <;> simp_all
    rcases (hi.waiting hd).1 with hb | hb
    · right; right
      refine ⟨_, .tick s hb hf, rfl, ?_⟩
      have := hi.probes
      rw [if_neg hd] at this
      simp [this]
    · exact .inr (.inl hb)

/-- C34, meta and binary: once the probe is over and the goroutine waits again — after a successful probe, a
successful reconnect, or a failed probe after which it closed the connection — it waits for ever: it never
does anything again and never returns, whatever else happens, including Close. -/
theorem C34_leak (kind : Kind) (auto : Bool) (hk : kind ≠ .text) (s : State) (h : HbReached kind auto s)
    (hp : s.probes = 1) (hb : s.hb = .select) (n : Nat) (t : State) (hs : Steps kind auto s n t) :
    n = 0 ∧ t.hb = .select ∧ Blocked kind auto t := by
  have key : ∀ u, HbReached kind auto u → u.timer = .drained → u.hb = .select → Blocked kind auto u := by
    intro u hu hd hsel v hv
    have hc := (hu.inv.gone hk).1
    cases hv <;> simp_all
  have hd : s.timer = .drained := by
    have := h.inv.probes
    by_cases hx : s.timer = .drained
    · exact hx
    · rw [if_neg hx] at this; omega
  have main : n = 0 ∧ t.hb = .select ∧ t.timer = .drained := by
    induction hs with
    | refl => exact ⟨rfl, hb, hd⟩
    | hb hsub hst ih =>
      obtain ⟨_, h2, h3⟩ := ih
      exact absurd hst (key _ (h.steps hsub) h3 h2 _)
    | world hsub hst ih =>
      obtain ⟨h1, h2, h3⟩ := ih
      cases hst with
      | fire _ ha => rw [h3] at ha; simp at ha
      | userClose => exact ⟨h1, h2, h3⟩
      | other => exact ⟨h1, h2, h3⟩
  exact ⟨main.1, main.2.1, key t (h.steps hs) main.2.2 main.2.1⟩

/-- C34, meta and binary: the goroutine returns only when a reconnect it tried has failed. -/
theorem C34_returns_only (kind : Kind) (auto : Bool) (hk : kind ≠ .text) (s : State) (h : HbReached kind auto s)
    (hb : s.hb = .returned) : auto = true ∧ s.reconnects = 1 := by
  have hi := h.inv
  have hr := (hi.gone hk).2 hb
  refine ⟨?_, hr⟩
  cases auto with
  | true => rfl
  | false => have := (hi.auto.1 rfl).1; omega

/-- Steps the goroutine still has before it. -/
def todo (s : State) : Nat :=
  match s.hb with
  | .returned => 0
  | .select => if s.timer = .drained then 1 else 4
  | .reconnect => 2
  | .close => 2
  | .version => 3

theorem todo_step {kind : Kind} {auto : Bool} {s t : State} (hi : HbInv kind auto s) :
    (Step kind auto .hb s t → todo t < todo s) ∧ (Step kind auto .world s t → todo t ≤ todo s) := by
  have hdr : s.hb ≠ .select → s.hb ≠ .returned → s.timer = .drained := by
    intro h1 h2
    by_cases h : s.timer = .drained
    · exact h
    · rcases (hi.waiting h).1 with h' | h' <;> contradiction
  constructor
  · intro hs
    cases hs with
    | quit _ hb hc =>
      simp only [todo, hb]
      split <;> omega
    | tick _ hb ht => simp [todo, hb, ht]
    | probeOk _ hb => simp [todo, hb, hdr (by simp [hb]) (by simp [hb])]
    | probeRetry _ hb ha => simp [todo, hb]
    | probeGiveUp _ hb ha => simp [todo, hb]
    | reconnectOk _ hb => simp [todo, hb, hdr (by simp [hb]) (by simp [hb])]
    | reconnectErr _ hb => simp [todo, hb]
    | closeDone _ hb => simp [todo, hb, hdr (by simp [hb]) (by simp [hb])]
  · intro hs
    cases hs with
    | fire _ ha =>
      unfold todo
      cases s.hb <;> simp [ha]
    | userClose => exact Nat.le_refl _
    | other => exact Nat.le_refl _

/-- C34: the goroutine takes at most four steps in its life. -/
theorem C34_bounded (kind : Kind) (auto : Bool) (n : Nat) (s : State) (h : Steps kind auto start n s) : n ≤ 4 := by
  have key : n + todo s ≤ 4 := by
    have hinv : ∀ {m t}, Steps kind auto start m t → HbInv kind auto t := fun hs => HbReached.inv ⟨_, hs⟩
    induction h with
    | refl => decide
    | hb hsub hst ih => have := (todo_step (hinv hsub)).1 hst; omega
    | world hsub hst ih => have := (todo_step (hinv hsub)).2 hst; omega
  omega

/-- C34, text: after Close the goroutine is never stuck before it has returned; as it takes only a bounded
number of steps (`C34_bounded`), it returns. -/
theorem C34_text_ends (auto : Bool) (s : State) (hc : s.closed = true) (hb : Blocked .text auto s) :
    s.hb = .returned := by
  cases hs : s.hb with
  | returned => rfl
  | select => exact absurd (.quit s hs hc) (hb _)
  | version => exact absurd (.probeOk s hs) (hb _)
  | reconnect => exact absurd (.reconnectOk s hs) (hb _)
  | close => exact absurd (.closeDone s hs) (hb _)

/-- C34, text without automatic reconnection: the goroutine that has closed the connection after a failed
probe can return. -/
theorem C34_text_give_up (s : State) (h : HbReached .text false s) (hp : s.closes = 1) (hb : s.hb = .select) :
    ∃ t, Step .text false .hb s t ∧ t.hb = .returned := by
  rcases h.inv.shut rfl hp with h' | h'
  · rw [hb] at h'; simp at h'
  · exact ⟨_, .quit s hb h', rfl⟩

/-- A schedule: the timer fires, the probe succeeds, the user closes the (meta) connection; the goroutine is
left waiting. -/
example : ∃ s, HbReached .metap true s ∧ s.probes = 1 ∧ s.hb = .select := by
  refine ⟨⟨.drained, .select, false, 1, 0, 0⟩, ⟨2, ?_⟩, rfl, rfl⟩
  exact ((Steps.refl.world (.fire _ rfl)).hb (.tick _ rfl rfl)).hb (.probeOk _ rfl) |>.world (.userClose _)

/-- A schedule with a failed probe on a text connection: the goroutine closes the connection and returns. -/
example : HbReached .text false ⟨.drained, .returned, true, 1, 0, 1⟩ :=
  ⟨4, ((((Steps.refl.world (.fire _ rfl)).hb (.tick _ rfl rfl)).hb (.probeGiveUp _ rfl rfl)).hb
    (.closeDone _ rfl)).hb (.quit _ rfl rfl)⟩

end Props
end Verif
