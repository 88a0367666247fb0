import Verif.Go.Puts
/-! Lemmas about `bufio.Writer` and code that writes to one. -/

namespace Verif
namespace Writer

/-- `t` was given to the writer: a prefix of it is on the wire; unless a write failed, the rest is in the buffer. -/
def Holds (t : Bytes) (b : Writer) : Prop :=
  (b.failed = false → b.net.sent ++ b.buf = t) ∧ b.net.sent <+: t ∧ b.buf.length ≤ bufSize

theorem holds_fresh (fs : List Fate) : Holds [] { net := { fates := fs } } :=
  ⟨fun _ => rfl, List.nil_prefix, Nat.zero_le _⟩

theorem Holds.mono {t u : Bytes} {b : Writer} (h : Holds t b) (hf : b.failed = true) (hu : t <+: u) : Holds u b :=
  ⟨fun h' => by simp [hf] at h', h.2.1.trans hu, h.2.2⟩

theorem pipe_sent (c : Pipe) (p : Bytes) :
    (c.write p).2.2.sent = c.sent ++ p.take (c.write p).1 ∧ (c.write p).1 ≤ p.length
      ∧ ((c.write p).2.1 = true → (c.write p).1 = p.length) := by
  unfold Pipe.write Pipe.sent
  split
  · simp
  · simp
  · rename_i n fs h
    refine ⟨?_, Nat.min_le_right _ _, by simp⟩
    simp only [List.flatMap_append, List.flatMap_cons, List.flatMap_nil, List.append_nil, List.append_cancel_left_eq]
    rw [List.take_eq_take_iff]
    omega

theorem flush_failed {b : Writer} (h : b.failed = true) : b.flush = b := by simp [flush, h]

theorem write_failed {b : Writer} (h : b.failed = true) (p : Bytes) : b.write p = b := by
  rw [write.eq_1]; simp [h]

theorem writeString_failed {b : Writer} (h : b.failed = true) (p : Bytes) : b.writeString p = b := by
  rw [writeString.eq_1]; simp [h]

theorem flush_holds {t : Bytes} {b : Writer} (h : Holds t b) : Holds t b.flush := by
  unfold flush
  split
  · exact h
  · split
    · exact h
    · rename_i hf hb
      have hf' : b.failed = false := by simpa using hf
      have e := h.1 hf'
      obtain ⟨p1, p2, p3⟩ := pipe_sent b.net b.buf
      split
      · rename_i n c hw
        rw [hw] at p1 p2 p3
        simp only [forall_const] at p1 p2 p3
        rw [p3, List.take_length, e] at p1
        exact ⟨fun _ => by simp [p1], by rw [p1]; exact List.prefix_refl _, Nat.zero_le _⟩
      · rename_i n c hw
        rw [hw] at p1 p2 p3
        simp only at p1 p2 p3
        refine ⟨fun h => by simp at h, ?_, ?_⟩
        · show c.sent <+: t
          rw [p1, ← e]
          exact List.prefix_append_right_inj _ |>.2 (List.take_prefix _ _)
        · show (b.buf.drop n).length ≤ _
          have := h.2.2
          rw [List.length_drop]; omega

theorem fill_holds {t : Bytes} {b : Writer} (hf : b.failed = false) (h : Holds t b) (p : Bytes) :
    Holds (t ++ p.take (bufSize - b.buf.length)) (fill p b) := by
  unfold fill
  apply flush_holds
  refine ⟨fun _ => ?_, ?_, ?_⟩
  · show b.net.sent ++ (b.buf ++ _) = _
    rw [← h.1 hf]; simp
  · exact h.2.1.trans (List.prefix_append _ _)
  · show (b.buf ++ _).length ≤ _
    have := h.2.2
    rw [List.length_append, List.length_take]; omega

theorem direct_holds {t : Bytes} {b : Writer} (hf : b.failed = false) (h : Holds t b) (hb : b.buf = []) (p : Bytes) :
    Holds (t ++ p.take (direct p b).1) (direct p b).2 := by
  obtain ⟨p1, p2, p3⟩ := pipe_sent b.net p
  have e := h.1 hf
  rw [hb, List.append_nil] at e
  have hs : (direct p b).2.net.sent = t ++ p.take (direct p b).1 := by
    rw [← e]; exact p1
  refine ⟨fun _ => ?_, ?_, ?_⟩
  · rw [hs]; show _ ++ b.buf = _; rw [hb]; simp
  · rw [hs]; exact List.prefix_refl _
  · show b.buf.length ≤ _; exact h.2.2

theorem write_holds (b : Writer) (p t : Bytes) (h : Holds t b) : Holds (t ++ p) (b.write p) := by
  fun_induction write b p generalizing t with
  | case1 b p hf => exact h.mono hf (List.prefix_append _ _)
  | case2 b p hf hl hb ih =>
    have := ih _ (direct_holds (by simpa using hf) h hb p)
    rwa [List.append_assoc, List.take_append_drop] at this
  | case3 b p hf hl hb ih =>
    have := ih _ (fill_holds (by simpa using hf) h p)
    rwa [List.append_assoc, List.take_append_drop] at this
  | case4 b p hf hl =>
    refine ⟨fun _ => ?_, h.2.1.trans (List.prefix_append _ _), ?_⟩
    · show b.net.sent ++ (b.buf ++ p) = _
      rw [← h.1 (by simpa using hf), List.append_assoc]
    · show (b.buf ++ p).length ≤ _
      have := h.2.2
      rw [List.length_append]; omega

theorem writeString_holds (b : Writer) (p t : Bytes) (h : Holds t b) : Holds (t ++ p) (b.writeString p) := by
  fun_induction writeString b p generalizing t with
  | case1 b p hf => exact h.mono hf (List.prefix_append _ _)
  | case2 b p hf hl ih =>
    have := ih _ (fill_holds (by simpa using hf) h p)
    rwa [List.append_assoc, List.take_append_drop] at this
  | case3 b p hf hl =>
    refine ⟨fun _ => ?_, h.2.1.trans (List.prefix_append _ _), ?_⟩
    · show b.net.sent ++ (b.buf ++ p) = _
      rw [← h.1 (by simpa using hf), List.append_assoc]
    · show (b.buf ++ p).length ≤ _
      have := h.2.2
      rw [List.length_append]; omega

/-- The connection never fails (again). -/
def Sound (b : Writer) : Prop := b.failed = false ∧ ∀ f ∈ b.net.fates, f = .all

theorem pipe_sound {c : Pipe} (h : ∀ f ∈ c.fates, f = .all) (p : Bytes) :
    (c.write p).2.1 = true ∧ ∀ f ∈ (c.write p).2.2.fates, f = .all := by
  unfold Pipe.write
  split
  · exact ⟨rfl, h⟩
  · rename_i fs e
    exact ⟨rfl, fun f hf => h f (by rw [e]; exact List.mem_cons_of_mem _ hf)⟩
  · rename_i n fs e
    have := h (.cut n) (by rw [e]; exact List.mem_cons_self)
    simp at this

theorem flush_sound {b : Writer} (h : Sound b) : Sound b.flush := by
  unfold flush
  split
  · exact h
  · split
    · exact h
    · obtain ⟨p1, p2⟩ := pipe_sound h.2 b.buf
      split
      · rename_i n c e; rw [e] at p2; exact ⟨h.1, p2⟩
      · rename_i n c e; rw [e] at p1; simp at p1

theorem fill_sound {b : Writer} (h : Sound b) (p : Bytes) : Sound (fill p b) := flush_sound h

theorem direct_sound {b : Writer} (h : Sound b) (p : Bytes) : Sound (direct p b).2 := by
  obtain ⟨p1, p2⟩ := pipe_sound h.2 p
  refine ⟨?_, p2⟩
  show (!(b.net.write p).2.1) = false
  rw [p1]; rfl

theorem write_sound (b : Writer) (p : Bytes) (h : Sound b) : Sound (b.write p) := by
  fun_induction write b p with
  | case1 b p hf => exact h
  | case2 b p hf hl hb ih => exact ih (direct_sound h p)
  | case3 b p hf hl hb ih => exact ih (fill_sound h p)
  | case4 b p hf hl => exact h

theorem writeString_sound (b : Writer) (p : Bytes) (h : Sound b) : Sound (b.writeString p) := by
  fun_induction writeString b p with
  | case1 b p hf => exact h
  | case2 b p hf hl ih => exact ih (fill_sound h p)
  | case3 b p hf hl => exact h

/-- The `Write`s made on the connection tell whether the writer has failed: no `Write` was made after one failed. -/
def Logged (b : Writer) : Prop :=
  if b.failed then ∃ ws w, b.net.writes = ws ++ [w] ∧ w.ok = false ∧ ∀ x ∈ ws, x.ok = true
  else ∀ x ∈ b.net.writes, x.ok = true

theorem logged_fresh (fs : List Fate) : Logged { net := { fates := fs } } := by
  intro x hx; simp at hx

theorem logged_buf {b : Writer} (h : Logged b) (c : Bytes) : Logged { b with buf := c } := h

theorem pipe_logged {c : Pipe} (h : ∀ x ∈ c.writes, x.ok = true) (p : Bytes) :
    if (c.write p).2.1 then ∀ x ∈ (c.write p).2.2.writes, x.ok = true
    else ∃ ws w, (c.write p).2.2.writes = ws ++ [w] ∧ w.ok = false ∧ ∀ x ∈ ws, x.ok = true := by
  unfold Pipe.write
  split
  · intro x hx
    simp only [List.mem_append, List.mem_singleton] at hx
    rcases hx with hx | rfl
    · exact h x hx
    · rfl
  · intro x hx
    simp only [List.mem_append, List.mem_singleton] at hx
    rcases hx with hx | rfl
    · exact h x hx
    · rfl
  · exact ⟨_, _, rfl, rfl, h⟩

theorem logged_ok {b : Writer} (h : Logged b) (hf : b.failed = false) : ∀ x ∈ b.net.writes, x.ok = true := by
  unfold Logged at h
  rwa [if_neg (by simp [hf])] at h

theorem logged_failed {b : Writer} (h : Logged b) (hf : b.failed = true) :
    ∃ ws w, b.net.writes = ws ++ [w] ∧ w.ok = false ∧ ∀ x ∈ ws, x.ok = true := by
  unfold Logged at h
  rwa [if_pos hf] at h

theorem logged_iff {b : Writer} (h : Logged b) : b.failed = true ↔ ∃ w ∈ b.net.writes, w.ok = false := by
  constructor
  · intro hf
    obtain ⟨ws, w, e, hw, _⟩ := logged_failed h hf
    exact ⟨w, by simp [e], hw⟩
  · rintro ⟨w, hw, ho⟩
    cases hf : b.failed with
    | true => rfl
    | false => rw [logged_ok h hf w hw] at ho; cases ho

theorem flush_logged {b : Writer} (h : Logged b) : Logged b.flush := by
  unfold flush
  split
  · exact h
  · split
    · exact h
    · rename_i hf hb
      have hp := pipe_logged (logged_ok h (by simpa using hf)) b.buf
      split
      · rename_i n c e
        rw [e] at hp
        unfold Logged
        rw [if_neg hf]
        exact hp
      · rename_i n c e
        rw [e] at hp
        unfold Logged
        rw [if_pos rfl]
        exact hp

theorem fill_logged {b : Writer} (h : Logged b) (p : Bytes) : Logged (fill p b) := flush_logged (logged_buf h _)

theorem direct_logged {b : Writer} (hf : b.failed = false) (h : Logged b) (p : Bytes) : Logged (direct p b).2 := by
  have hp := pipe_logged (logged_ok h hf) p
  unfold direct
  cases hw : b.net.write p with
  | mk n y =>
    obtain ⟨ok, c⟩ := y
    rw [hw] at hp
    unfold Logged
    cases ok
    · exact hp
    · exact hp

theorem write_logged (b : Writer) (p : Bytes) (h : Logged b) : Logged (b.write p) := by
  fun_induction write b p with
  | case1 b p hf => exact h
  | case2 b p hf hl hb ih => exact ih (direct_logged (by simpa using hf) h p)
  | case3 b p hf hl hb ih => exact ih (fill_logged h p)
  | case4 b p hf hl => exact h

theorem writeString_logged (b : Writer) (p : Bytes) (h : Logged b) : Logged (b.writeString p) := by
  fun_induction writeString b p with
  | case1 b p hf => exact h
  | case2 b p hf hl ih => exact ih (fill_logged h p)
  | case3 b p hf hl => exact h

theorem write_fits {b : Writer} (hf : b.failed = false) {p : Bytes} (h : b.buf.length + p.length ≤ bufSize) :
    b.write p = { b with buf := b.buf ++ p } := by
  rw [write.eq_1, dif_neg (by simp [hf]), if_neg (by omega)]

theorem writeString_fits {b : Writer} (hf : b.failed = false) {p : Bytes} (h : b.buf.length + p.length ≤ bufSize) :
    b.writeString p = { b with buf := b.buf ++ p } := by
  rw [writeString.eq_1, dif_neg (by simp [hf]), if_neg (by omega)]

end Writer

namespace Put
open Writer

theorem run_holds (ps : List Put) (b : Writer) (t : Bytes) (h : Holds t b) : Holds (t ++ bytes ps) (run ps b).2 := by
  induction ps generalizing b t with
  | nil => simpa [bytes, run] using h
  | cons a ps ih =>
    have chk : ∀ (c : Writer) (p : Bytes), Holds (t ++ p) c → Holds (t ++ (p ++ bytes ps)) (checked c (run ps)).2 := by
      intro c p hc
      unfold checked
      rw [← List.append_assoc]
      split
      · rename_i hf; exact hc.mono hf (List.prefix_append _ _)
      · exact ih c _ hc
    cases a with
    | write p => exact chk _ p (write_holds b p t h)
    | write' p =>
      have := ih _ _ (write_holds b p t h)
      rwa [List.append_assoc] at this
    | string p => exact chk _ p (writeString_holds b p t h)
    | string' p =>
      have := ih _ _ (writeString_holds b p t h)
      rwa [List.append_assoc] at this
    | flush => exact chk _ [] (by simpa using flush_holds h)
    | fail e => simpa [bytes, run] using h
    | panic => simpa [bytes, run] using h

theorem run_sound (ps : List Put) (b : Writer) (h : Sound b) : Sound (run ps b).2 := by
  induction ps generalizing b with
  | nil => exact h
  | cons a ps ih =>
    have chk : ∀ c : Writer, Sound c → Sound (checked c (run ps)).2 := by
      intro c hc
      unfold checked
      split
      · exact hc
      · exact ih c hc
    cases a with
    | write p => exact chk _ (write_sound b p h)
    | write' p => exact ih _ (write_sound b p h)
    | string p => exact chk _ (writeString_sound b p h)
    | string' p => exact ih _ (writeString_sound b p h)
    | flush => exact chk _ (flush_sound h)
    | fail e => exact h
    | panic => exact h

/-- How the code ends when no write fails. -/
def ends : List Put → Res Unit
  | [] => .ok ()
  | .fail e :: _ => .err e
  | .panic :: _ => .panic
  | _ :: ps => ends ps

theorem run_ends (ps : List Put) (b : Writer) (h : Sound b) : (run ps b).1 = ends ps := by
  induction ps generalizing b with
  | nil => rfl
  | cons a ps ih =>
    have chk : ∀ c : Writer, Sound c → (checked c (run ps)).1 = ends ps := by
      intro c hc
      unfold checked
      rw [if_neg (by simp [hc.1])]
      exact ih c hc
    cases a with
    | write p => exact chk _ (write_sound b p h)
    | write' p => exact ih _ (write_sound b p h)
    | string p => exact chk _ (writeString_sound b p h)
    | string' p => exact ih _ (writeString_sound b p h)
    | flush => exact chk _ (flush_sound h)
    | fail e => rfl
    | panic => rfl

/-- Once a write has failed, nothing goes out any more, and the code does not come past a `Flush` or a checked
write. -/
theorem run_failed (ps : List Put) (b : Writer) (h : b.failed = true) :
    (run ps b).2 = b ∧ ((run ps b).1 = .err .io ∨ (run ps b).1 = ends ps) := by
  induction ps generalizing b with
  | nil => exact ⟨rfl, .inr rfl⟩
  | cons a ps ih =>
    cases a with
    | write p => simp [run, checked, write_failed h, h]
    | write' p => simp only [run, write_failed h]; exact ih b h
    | string p => simp [run, checked, writeString_failed h, h]
    | string' p => simp only [run, writeString_failed h]; exact ih b h
    | flush => simp [run, checked, flush_failed h, h]
    | fail e => exact ⟨rfl, .inr rfl⟩
    | panic => exact ⟨rfl, .inr rfl⟩

/-- Whatever the connection does, the outcome is an i/o error or what it is without failures. -/
theorem run_outcome (ps : List Put) (b : Writer) : (run ps b).1 = .err .io ∨ (run ps b).1 = ends ps := by
  induction ps generalizing b with
  | nil => exact .inr rfl
  | cons a ps ih =>
    have chk : ∀ c : Writer, (checked c (run ps)).1 = .err .io ∨ (checked c (run ps)).1 = ends ps := by
      intro c
      unfold checked
      split
      · exact .inl rfl
      · exact ih c
    cases a with
    | write p => exact chk _
    | write' p => exact ih _
    | string p => exact chk _
    | string' p => exact ih _
    | flush => exact chk _
    | fail e => exact .inr rfl
    | panic => exact .inr rfl

theorem run_append (ps qs : List Put) (b : Writer) :
    run (ps ++ qs) b = match run ps b with
      | (.ok (), c) => run qs c
      | (.err e, c) => (.err e, c)
      | (.panic, c) => (.panic, c) := by
  induction ps generalizing b with
  | nil => rfl
  | cons a ps ih =>
    cases a with
    | write p => simp only [List.cons_append, run, checked]; split <;> simp [ih]
    | write' p => simp only [List.cons_append, run, ih]
    | string p => simp only [List.cons_append, run, checked]; split <;> simp [ih]
    | string' p => simp only [List.cons_append, run, ih]
    | flush => simp only [List.cons_append, run, checked]; split <;> simp [ih]
    | fail e => rfl
    | panic => rfl

/-- Code that ends with a `Flush` and returned nil has put everything on the wire. -/
theorem run_flushed (ps : List Put) (b : Writer) (h : (run (ps ++ [.flush]) b).1 = .ok ()) :
    (run (ps ++ [.flush]) b).2.failed = false ∧ (run (ps ++ [.flush]) b).2.buf = [] := by
  rw [run_append] at h ⊢
  cases hr : run ps b with
  | mk x c =>
    rw [hr] at h
    cases x with
    | err e => simp at h
    | panic => simp at h
    | ok u =>
      simp only [run, checked] at h ⊢
      split at h
      · simp at h
      · rename_i hf
        rw [if_neg hf]
        have hf' : c.flush.failed = false := by simpa using hf
        refine ⟨hf', ?_⟩
        rcases flush_done c with h1 | h1
        · rw [hf'] at h1; cases h1
        · exact h1

theorem run_logged (ps : List Put) (b : Writer) (h : Logged b) : Logged (run ps b).2 := by
  induction ps generalizing b with
  | nil => exact h
  | cons a ps ih =>
    have chk : ∀ c : Writer, Logged c → Logged (checked c (run ps)).2 := by
      intro c hc
      unfold checked
      split
      · exact hc
      · exact ih c hc
    cases a with
    | write p => exact chk _ (write_logged b p h)
    | write' p => exact ih _ (write_logged b p h)
    | string p => exact chk _ (writeString_logged b p h)
    | string' p => exact ih _ (writeString_logged b p h)
    | flush => exact chk _ (flush_logged h)
    | fail e => exact h
    | panic => exact h

/-- Code without a `Flush`. -/
def noFlush : List Put → Prop
  | [] => True
  | .flush :: _ => False
  | _ :: ps => noFlush ps

/-- What fits into the buffer is not written to the connection before the `Flush`. -/
theorem run_fits (ps : List Put) (b : Writer) (hf : b.failed = false) (hn : noFlush ps)
    (h : b.buf.length + (bytes ps).length ≤ bufSize) : run ps b = (ends ps, { b with buf := b.buf ++ bytes ps }) := by
  induction ps generalizing b with
  | nil => simp [run, ends, bytes]
  | cons a ps ih =>
    have step : ∀ p : Bytes, b.buf.length + (p ++ bytes ps).length ≤ bufSize → noFlush ps →
        run ps { b with buf := b.buf ++ p } = (ends ps, { b with buf := b.buf ++ (p ++ bytes ps) }) := by
      intro p hp hq
      have := ih { b with buf := b.buf ++ p } hf hq (by simp only [List.length_append] at hp ⊢; omega)
      rwa [List.append_assoc] at this
    have le : ∀ p : Bytes, b.buf.length + (p ++ bytes ps).length ≤ bufSize → b.buf.length + p.length ≤ bufSize := by
      intro p hp; rw [List.length_append] at hp; omega
    cases a with
    | write p =>
      simp only [run, checked, write_fits hf (le p h)]
      rw [if_neg (by simp [hf])]
      exact step p h hn
    | write' p => simp only [run, write_fits hf (le p h)]; exact step p h hn
    | string p =>
      simp only [run, checked, writeString_fits hf (le p h)]
      rw [if_neg (by simp [hf])]
      exact step p h hn
    | string' p => simp only [run, writeString_fits hf (le p h)]; exact step p h hn
    | flush => exact absurd hn (by simp [noFlush])
    | fail e => simp [run, ends, bytes]
    | panic => simp [run, ends, bytes]

/-- Such code followed by a `Flush`: one `Write` on the connection. -/
theorem run_one (ps : List Put) (b : Writer) (hf : b.failed = false) (hb : b.buf = []) (hn : noFlush ps)
    (he : ends ps = .ok ()) (h0 : bytes ps ≠ []) (h : (bytes ps).length ≤ bufSize) :
    ∃ x, (run (ps ++ [.flush]) b).2.net.writes = b.net.writes ++ [x]
      ∧ (x.ok = true → x.bytes = bytes ps) ∧ x.bytes <+: bytes ps
      ∧ (run (ps ++ [.flush]) b).1 = (if x.ok then .ok () else .err .io) := by
  rw [run_append, run_fits ps b hf hn (by rw [hb]; simpa using h), he]
  simp only [run, checked, hb, List.nil_append]
  unfold Writer.flush
  simp only [hf, Bool.false_eq_true, if_false, h0]
  unfold Pipe.write
  cases hfs : b.net.fates with
  | nil => exact ⟨⟨bytes ps, true⟩, by simp [hf]⟩
  | cons f fs =>
    cases f with
    | all => exact ⟨⟨bytes ps, true⟩, by simp [hf]⟩
    | cut n => exact ⟨⟨(bytes ps).take n, false⟩, by simp [List.take_prefix]⟩

end Put
end Verif
