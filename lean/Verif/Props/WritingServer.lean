import Verif.Props.Writing
import Verif.Props.ServeLoop
/-! C76, the server's half: replies through a `bufio.Writer` to a connection whose writes may fail. -/

namespace Verif
namespace Writer

theorem flush_grows (b : Writer) : b.net.sent <+: b.flush.net.sent := by
  unfold flush
  split
  · exact List.prefix_refl _
  · split
    · exact List.prefix_refl _
    · have h := (pipe_sent b.net b.buf).1
      split
      · rename_i n c e; rw [e] at h; show _ <+: c.sent; rw [h]; exact List.prefix_append _ _
      · rename_i n c e; rw [e] at h; show _ <+: c.sent; rw [h]; exact List.prefix_append _ _

theorem fill_grows (p : Bytes) (b : Writer) : b.net.sent <+: (fill p b).net.sent := by
  have := flush_grows { b with buf := b.buf ++ p.take (bufSize - b.buf.length) }
  exact this

theorem direct_grows (p : Bytes) (b : Writer) : b.net.sent <+: (direct p b).2.net.sent := by
  have h : (direct p b).2.net.sent = _ := (pipe_sent b.net p).1
  rw [h]; exact List.prefix_append _ _

theorem write_grows (b : Writer) (p : Bytes) : b.net.sent <+: (b.write p).net.sent := by
  fun_induction write b p with
  | case1 b p hf => exact List.prefix_refl _
  | case2 b p hf hl hb ih => exact (direct_grows p b).trans ih
  | case3 b p hf hl hb ih => exact (fill_grows p b).trans ih
  | case4 b p hf hl => exact List.prefix_refl _

theorem writeString_grows (b : Writer) (p : Bytes) : b.net.sent <+: (b.writeString p).net.sent := by
  fun_induction writeString b p with
  | case1 b p hf => exact List.prefix_refl _
  | case2 b p hf hl ih => exact (fill_grows p b).trans ih
  | case3 b p hf hl => exact List.prefix_refl _

end Writer

namespace Put
open Writer

theorem run_grows (ps : List Put) (b : Writer) : b.net.sent <+: (run ps b).2.net.sent := by
  induction ps generalizing b with
  | nil => exact List.prefix_refl _
  | cons a ps ih =>
    have chk : ∀ c : Writer, c.net.sent <+: (checked c (run ps)).2.net.sent := by
      intro c
      unfold checked
      split
      · exact List.prefix_refl _
      · exact ih c
    cases a with
    | write p => exact (write_grows b p).trans (chk _)
    | write' p => exact (write_grows b p).trans (ih _)
    | string p => exact (writeString_grows b p).trans (chk _)
    | string' p => exact (writeString_grows b p).trans (ih _)
    | flush => exact (flush_grows b).trans (chk _)
    | fail e => exact List.prefix_refl _
    | panic => exact List.prefix_refl _

/-- Code that, when it returns nil, leaves nothing in the buffer. -/
def Tight (ps : List Put) : Prop :=
  ∀ b : Writer, b.failed = false → b.buf = [] → (run ps b).1 = .ok () →
    (run ps b).2.failed = false ∧ (run ps b).2.buf = []

theorem tight_nil : Tight [] := fun _ h1 h2 _ => ⟨h1, h2⟩
theorem tight_flush (ps : List Put) : Tight (ps ++ [.flush]) := fun b _ _ h => run_flushed ps b h
theorem tight_append {ps qs : List Put} (h : Tight ps) (h' : Tight qs) : Tight (ps ++ qs) := by
  intro b h1 h2 h3
  rw [run_append] at h3 ⊢
  have := h b h1 h2
  cases hr : run ps b with
  | mk x c =>
    rw [hr] at h3 this
    cases x with
    | ok u => obtain ⟨a, b⟩ := this rfl; exact h' c a b h3
    | err e => cases h3
    | panic => cases h3
theorem tight_flatMap {α : Type} {f : α → List Put} (h : ∀ a, Tight (f a)) (l : List α) : Tight (l.flatMap f) := by
  induction l with
  | nil => exact tight_nil
  | cons a l ih => exact tight_append (h a) ih

end Put

namespace Props
open Spec Put Srv

/-- The statements of a reply writer write the reply `r`, or stop as it does. -/
def Writes (ps : List Put) (r : Res Bytes) : Prop :=
  match r with
  | .ok b => ends ps = .ok () ∧ bytes ps = b
  | .err e => ps = [.fail e]
  | .panic => ends ps = .panic

theorem writes_panic : Writes [.panic] .panic := rfl

theorem ends_ok_append (ps qs : List Put) : ends (ps ++ qs) = match ends ps with
    | .ok () => ends qs
    | .err e => .err e
    | .panic => .panic := by
  induction ps with
  | nil => rfl
  | cons a ps ih => cases a <;> simp_all [ends]

theorem respFlags_cases (f : Bytes) : (∃ n, respFlags f = .ok n) ∨ respFlags f = .panic := by
  unfold respFlags beUint
  split
  · split
    · exact .inl ⟨_, rfl⟩
    · exact .inr rfl
  · exact .inl ⟨_, rfl⟩

theorem writes_asciiGet (r : Response) : Writes (Srv.Puts.asciiGet r) (writeAsciiGet r) := by
  unfold Srv.Puts.asciiGet writeAsciiGet
  rcases respFlags_cases r.flags with ⟨n, h⟩ | h
  · rw [h]; exact ⟨rfl, by simp [bytes]⟩
  · rw [h]; rfl

theorem tok_shape (req : Request) (r : Response) (flag : Nat) (l : Bytes) :
    ends (l.flatMap (Srv.Puts.metaGetTok req r flag)) = .ok ()
      ∧ bytes (l.flatMap (Srv.Puts.metaGetTok req r flag)) = l.flatMap (metaGetTok req r flag) := by
  induction l with
  | nil => exact ⟨rfl, rfl⟩
  | cons v l ih =>
    have h1 : ends (Srv.Puts.metaGetTok req r flag v) = .ok ()
        ∧ bytes (Srv.Puts.metaGetTok req r flag v) = metaGetTok req r flag v := by
      unfold Srv.Puts.metaGetTok metaGetTok
      repeat' split
      all_goals exact ⟨rfl, by simp [bytes]⟩
    simp only [List.flatMap_cons]
    rw [ends_append _ _ h1.1, bytes_append _ _ h1.1, h1.2, ih.2]
    exact ⟨ih.1, rfl⟩

theorem writes_asciiMetaGet (req : Request) (o : GetOpt) (r : Response) :
    Writes (Srv.Puts.asciiMetaGet req o r) (writeAsciiMetaGet req o r) := by
  unfold Srv.Puts.asciiMetaGet writeAsciiMetaGet
  rcases respFlags_cases r.flags with ⟨n, h⟩ | h
  · rw [h]
    obtain ⟨t1, t2⟩ := tok_shape req r n o.requestFlag
    show Writes _ (.ok _)
    simp only [Writes, ends, bytes]
    rw [List.append_assoc, List.append_assoc, ends_append _ _ t1, bytes_append _ _ t1, t2]
    constructor
    · cases o.value <;> rfl
    · cases o.value <;> simp [bytes]
  · rw [h]; rfl

theorem writes_all (f : Response → List Put) (g : Response → Res Bytes) (h : ∀ r, Writes (f r) (g r))
    (hne : ∀ r e, g r ≠ .err e) (res : List Response) :
    (∃ b, writeAll g res = .ok b ∧ ends (res.flatMap f) = .ok () ∧ bytes (res.flatMap f) = b)
      ∨ (writeAll g res = .panic ∧ ends (res.flatMap f) = .panic) := by
  induction res with
  | nil => exact .inl ⟨[], rfl, rfl, rfl⟩
  | cons r res ih =>
    have hr := h r
    simp only [List.flatMap_cons, writeAll]
    cases hg : g r with
    | err e => exact absurd hg (hne r e)
    | panic =>
      rw [hg] at hr
      right
      refine ⟨rfl, ?_⟩
      rw [ends_ok_append, show ends (f r) = .panic from hr]
    | ok b =>
      rw [hg] at hr
      obtain ⟨e1, e2⟩ : ends (f r) = .ok () ∧ bytes (f r) = b := hr
      rw [ends_append _ _ e1, bytes_append _ _ e1, e2]
      rcases ih with ⟨c, i1, i2, i3⟩ | ⟨i1, i2⟩
      · left; rw [i1]; exact ⟨b ++ c, rfl, i2, by rw [i3]⟩
      · right; rw [i1]; exact ⟨rfl, i2⟩

theorem writes_onFirst (res : List Response) (f : Response → List Put) (g : Response → Res Bytes)
    (h : ∀ r, Writes (f r) (g r)) : Writes (Srv.Puts.onFirst res f) (onFirst res g) := by
  unfold Srv.Puts.onFirst onFirst
  cases res with
  | nil => rfl
  | cons r res =>
    by_cases he : r.error = none
    · simp only [if_pos he]; exact h r
    · simp only [if_neg he]; exact ⟨rfl, rfl⟩

theorem tight_onFirst (res : List Response) (f : Response → List Put) (h : ∀ r, Tight (f r)) :
    Tight (Srv.Puts.onFirst res f) := by
  unfold Srv.Puts.onFirst
  cases res with
  | nil => intro b _ _ h; cases h
  | cons r res =>
    by_cases he : r.error = none
    · simp only [if_pos he]; exact h r
    · simp only [if_neg he]; exact tight_nil

theorem tight_panic : Tight [.panic] := fun _ _ _ h => by cases h
theorem tight_fail (e : Err) : Tight [.fail e] := fun _ _ _ h => by cases h

theorem asciiGet_ne (r : Response) (e : Err) : writeAsciiGet r ≠ .err e := by
  unfold writeAsciiGet
  rcases respFlags_cases r.flags with ⟨n, h⟩ | h <;> rw [h] <;> intro h <;> cases h
theorem asciiMetaGet_ne (req : Request) (o : GetOpt) (r : Response) (e : Err) : writeAsciiMetaGet req o r ≠ .err e := by
  unfold writeAsciiMetaGet
  rcases respFlags_cases r.flags with ⟨n, h⟩ | h <;> rw [h] <;> intro h <;> cases h

theorem writes_ascii (req : Request) (res : List Response) :
    Writes (Srv.Puts.ascii req res) (writeAscii req res) ∧ Tight (Srv.Puts.ascii req res) := by
  unfold Srv.Puts.ascii writeAscii
  by_cases h1 : req.opcode = opGet
  · simp only [if_pos h1]
    cases ho : req.getOpt with
    | none =>
      simp only
      refine ⟨?_, ?_⟩
      · rcases writes_all _ _ writes_asciiGet asciiGet_ne res with ⟨b, e1, e2, e3⟩ | ⟨e1, e2⟩
        · rw [e1]
          refine ⟨by rw [ends_append _ _ e2]; rfl, ?_⟩
          rw [bytes_append _ _ e2, e3]; simp [bytes]
        · rw [e1]
          show ends _ = .panic
          rw [ends_ok_append, e2]
      · exact fun b _ _ h => run_flushed (res.flatMap Srv.Puts.asciiGet ++ [.write' b!"END\r\n"]) b
          (by simpa using h) |> (by simpa using ·)
    | some o =>
      simp only
      refine ⟨?_, tight_flush _⟩
      rcases writes_all _ _ (writes_asciiMetaGet req o) (asciiMetaGet_ne req o) res with ⟨b, e1, e2, e3⟩ | ⟨e1, e2⟩
      · rw [e1, List.append_assoc]
        refine ⟨?_, ?_⟩
        · rw [ends_append _ _ e2]
          split <;> rfl
        · rw [bytes_append _ _ e2, e3]
          split <;> simp [bytes]
      · rw [e1, List.append_assoc]
        show ends _ = .panic
        rw [ends_ok_append, e2]
  simp only [if_neg h1]
  by_cases h2 : req.opcode = opSet ∨ req.opcode = opAdd ∨ req.opcode = opReplace
  · simp only [if_pos h2]
    refine ⟨writes_onFirst _ _ _ (fun r => ?_), tight_onFirst _ _ (fun r => ?_)⟩
    · cases req.setOpt with
      | none => exact writes_panic
      | some o =>
        dsimp only
        cases o.metaCmd <;> exact ⟨rfl, rfl⟩
    · cases req.setOpt with
      | none => exact tight_panic
      | some o =>
        dsimp only
        cases o.metaCmd
        · exact tight_flush [.write' _]
        · exact tight_flush [.write' _, .write' _]
  simp only [if_neg h2]
  by_cases h3 : req.opcode = opDelete
  · simp only [if_pos h3]
    refine ⟨writes_onFirst _ _ _ (fun r => ?_), tight_onFirst _ _ (fun r => ?_)⟩
    · cases req.delOpt with
      | none => exact writes_panic
      | some o =>
        dsimp only
        cases o.metaCmd <;> exact ⟨rfl, rfl⟩
    · cases req.delOpt with
      | none => exact tight_panic
      | some o =>
        dsimp only
        cases o.metaCmd
        · exact tight_flush [.write' _]
        · exact tight_flush [.write' _, .write' _]
  simp only [if_neg h3]
  by_cases h4 : req.opcode = opIncrement ∨ req.opcode = opDecrement
  · simp only [if_pos h4]
    exact ⟨writes_onFirst _ _ _ (fun r => ⟨rfl, by simp [bytes]⟩), tight_onFirst _ _ (fun r => tight_flush [.write' _, .write' _])⟩
  simp only [if_neg h4]
  by_cases h5 : req.opcode = opVersion
  · simp only [if_pos h5]
    exact ⟨writes_onFirst _ _ _ (fun r => ⟨rfl, by simp [bytes]⟩), tight_onFirst _ _ (fun r => tight_flush [.write' _, .write' _])⟩
  simp only [if_neg h5]
  by_cases h6 : req.opcode = opTouch
  · simp only [if_pos h6]
    exact ⟨writes_onFirst _ _ _ (fun r => ⟨rfl, rfl⟩), tight_onFirst _ _ (fun r => tight_flush [.write' _])⟩
  simp only [if_neg h6]
  by_cases h7 : req.opcode = opFlush
  · simp only [if_pos h7]
    exact ⟨writes_onFirst _ _ _ (fun r => ⟨rfl, rfl⟩), tight_onFirst _ _ (fun r => tight_flush [.write' _])⟩
  simp only [if_neg h7]
  exact ⟨rfl, tight_fail _⟩

theorem binary1_shape (op : UInt8) (r : Response) :
    ends (Srv.Puts.binary1 op r) = .ok () ∧ bytes (Srv.Puts.binary1 op r) = writeBinary1 op r
      ∧ Tight (Srv.Puts.binary1 op r) := by
  refine ⟨?_, ?_, ?_⟩
  · unfold Srv.Puts.binary1
    split <;> split <;> split <;> rfl
  · unfold Srv.Puts.binary1 writeBinary1 Srv.Puts.header
    have z : ∀ l : Bytes, ¬ 0 < l.length → l = [] := fun l h => List.length_eq_zero_iff.1 (by omega)
    split <;> rename_i h1 <;> split <;> rename_i h2 <;> split <;> rename_i h3 <;>
      (try rw [z _ h1]) <;> (try rw [z _ h2]) <;> (try rw [z _ h3]) <;> simp [bytes]
  · unfold Srv.Puts.binary1
    exact tight_flush _

theorem writes_binary (req : Request) (res : List Response) :
    Writes (Srv.Puts.binary req res) (writeBinary req res) ∧ Tight (Srv.Puts.binary req res) := by
  unfold Srv.Puts.binary writeBinary
  by_cases h1 : req.opcode = opGet
  · simp only [if_pos h1]
    have hall : ends (res.flatMap (Srv.Puts.binary1 req.opcode)) = .ok ()
        ∧ bytes (res.flatMap (Srv.Puts.binary1 req.opcode)) = res.flatMap (writeBinary1 req.opcode) := by
      clear h1
      induction res with
      | nil => exact ⟨rfl, rfl⟩
      | cons r res ih =>
        obtain ⟨a, b, _⟩ := binary1_shape req.opcode r
        simp only [List.flatMap_cons]
        rw [ends_append _ _ a, bytes_append _ _ a, b, ih.2]
        exact ⟨ih.1, rfl⟩
    refine ⟨?_, tight_append (tight_flatMap (fun r => (binary1_shape _ r).2.2) res) ?_⟩
    · show ends _ = _ ∧ bytes _ = _
      rw [ends_append _ _ hall.1, bytes_append _ _ hall.1, hall.2]
      obtain ⟨a, b, _⟩ := binary1_shape opNoop {}
      split
      · exact ⟨a, by rw [b]⟩
      · exact ⟨rfl, rfl⟩
    · split
      · exact (binary1_shape _ _).2.2
      · exact tight_nil
  simp only [if_neg h1]
  by_cases h2 : req.opcode = opSet ∨ req.opcode = opAdd ∨ req.opcode = opReplace ∨ req.opcode = opDelete
      ∨ req.opcode = opIncrement ∨ req.opcode = opDecrement ∨ req.opcode = opVersion
      ∨ req.opcode = opFlush ∨ req.opcode = opTouch ∨ req.opcode = opNoop
  · simp only [if_pos h2]
    refine ⟨writes_onFirst _ _ _ (fun r => ?_), tight_onFirst _ _ (fun r => (binary1_shape _ r).2.2)⟩
    obtain ⟨a, b, _⟩ := binary1_shape req.opcode r
    exact ⟨a, b⟩
  simp only [if_neg h2]
  exact ⟨rfl, tight_fail _⟩

theorem writes_response (q : Protocol) (req : Request) (res : List Response) :
    Writes (Srv.Puts.response q req res) (writeResponse q req res) ∧ Tight (Srv.Puts.response q req res) := by
  cases q
  · exact writes_ascii req res
  · exact writes_binary req res

/-- What the serve loop on a failing connection does, compared with the loop on a perfect one; `t` was sent before. -/
def Follows {σ : Type} (h : Handler σ) (p : Option Protocol) (s : σ) (i : Bytes) (t : Bytes) (S : Served σ) : Prop :=
  (S.out.failed = false ∧ S.handled = (serve h p s i).handled ∧ S.state = (serve h p s i).state
    ∧ S.fin = (serve h p s i).fin ∧ t ++ (serve h p s i).out <+: S.out.net.sent
    ∧ ((serve h p s i).fin = .closed → S.out.net.sent = t ++ (serve h p s i).out))
  ∨ (S.handled <+: (serve h p s i).handled ∧ S.out.failed = true
    ∧ ∃ q reqs req bs res s1 b, (p = none ∨ p = some q) ∧ S.handled = reqs ++ [req] ∧ Replied h q s reqs bs s1
      ∧ h s1 req = (.ok res, S.state)
      ∧ t ++ bs.flatten <+: S.out.net.sent ∧ S.out.net.sent <+: t ++ bs.flatten ++ b
      ∧ ∀ b', writeResponse q req res = .ok b' → b = b' ∧ S.fin = .closed)

theorem run_failed_err (ps : List Put) (b : Writer) (he : ends ps ≠ .err .io) (h : (Put.run ps b).1 = .err .io) :
    (Put.run ps b).2.failed = true := by
  induction ps generalizing b with
  | nil => cases h
  | cons a ps ih =>
    have chk : ∀ c : Writer, (checked c (Put.run ps)).1 = .err .io → ends ps ≠ .err .io →
        (checked c (Put.run ps)).2.failed = true := by
      intro c h he
      unfold checked at h ⊢
      split
      · assumption
      · rename_i hf; rw [if_neg hf] at h; exact ih c he h
    cases a with
    | write p => exact chk _ h he
    | write' p => exact ih _ he h
    | string p => exact chk _ h he
    | string' p => exact ih _ he h
    | flush => exact chk _ h he
    | fail e => exact absurd h he
    | panic => cases h

theorem serveOn_follows {σ : Type} (h : Handler σ) (p : Option Protocol) (s : σ) (i : Bytes) (w : Writer) (t : Bytes)
    (hw : Writer.Holds t w) (hf : w.failed = false) (hb : w.buf = []) : Follows h p s i t (serveOn h p s i w) := by
  have hs : w.net.sent = t := by have := hw.1 hf; rwa [hb, List.append_nil] at this
  unfold Follows
  rw [serve_eq, serveOn]
  cases hr : readRequest p i with
  | mk x r =>
    cases x with
    | err e => left; exact ⟨hf, rfl, rfl, rfl, by simp [hs], fun _ => by simp [hs]⟩
    | panic => left; exact ⟨hf, rfl, rfl, rfl, by simp [hs], fun h => by cases h⟩
    | ok y =>
      obtain ⟨q, req⟩ := y
      simp only [serveStep]
      have hq : p = none ∨ p = some q := by
        cases p with
        | none => exact .inl rfl
        | some p => right; rw [readRequest_proto hr]
      cases hh : h s req with
      | mk z s' =>
        cases z with
        | err e => left; exact ⟨hf, rfl, rfl, rfl, by simp [hs], fun _ => by simp [hs]⟩
        | panic => left; exact ⟨hf, rfl, rfl, rfl, by simp [hs], fun h => by cases h⟩
        | ok res =>
          simp only
          obtain ⟨hW, hT⟩ := writes_response q req res
          have hold := run_holds (Srv.Puts.response q req res) w t hw
          have grow := run_grows (Srv.Puts.response q req res) w
          have fails := run_failed_err (Srv.Puts.response q req res) w
          have hout := Put.run_outcome (Srv.Puts.response q req res) w
          have tight := hT w hf hb
          cases hwr : writeResponse q req res with
          | err e =>
            rw [hwr] at hW
            have hW : Srv.Puts.response q req res = [.fail e] := hW
            rw [hW]
            left
            exact ⟨hf, rfl, rfl, rfl, by simp [Put.run, hs], fun _ => by simp [Put.run, hs]⟩
          | panic =>
            rw [hwr] at hW
            have hW : ends (Srv.Puts.response q req res) = .panic := hW
            rw [hW] at hout fails
            cases hrun : Put.run (Srv.Puts.response q req res) w with
            | mk o w' =>
              rw [hrun] at hold grow hout fails
              rcases hout with ho | ho
              · have ho : o = .err .io := ho
                subst ho
                right
                refine ⟨by simp, fails (by simp) rfl, q, [], req, [], res, s, bytes (Srv.Puts.response q req res), hq, rfl, .nil _, hh, ?_, ?_, ?_⟩
                · simpa [hs] using grow
                · simpa using hold.2.1
                · intro b' hb'; rw [hwr] at hb'; cases hb'
              · have ho : o = .panic := ho
                subst ho
                cases hw' : w'.failed with
                | false =>
                  left
                  exact ⟨rfl, rfl, rfl, rfl, by simpa [hs] using grow, fun h => by cases h⟩
                | true =>
                  right
                  refine ⟨by simp, rfl, q, [], req, [], res, s, bytes (Srv.Puts.response q req res), hq, rfl, .nil _, hh, ?_, ?_, ?_⟩
                  · simpa [hs] using grow
                  · simpa using hold.2.1
                  · intro b' hb'; rw [hwr] at hb'; cases hb'
          | ok b =>
            rw [hwr] at hW
            obtain ⟨hW, hbytes⟩ : ends (Srv.Puts.response q req res) = .ok () ∧ bytes (Srv.Puts.response q req res) = b := hW
            rw [hW] at hout fails
            cases hrun : Put.run (Srv.Puts.response q req res) w with
            | mk o w' =>
              rw [hrun] at hold grow hout fails tight
              rw [hbytes] at hold
              rcases hout with ho | ho
              · have ho : o = .err .io := ho
                subst ho
                right
                refine ⟨by simp, fails (by simp) rfl, q, [], req, [], res, s, b, hq, rfl, .nil _, hh, ?_, ?_, ?_⟩
                · simpa [hs] using grow
                · simpa using hold.2.1
                · intro b' hb'; rw [hwr] at hb'; injection hb' with hb'; exact ⟨hb', rfl⟩
              · have ho : o = .ok () := ho
                subst ho
                obtain ⟨hf', hb'⟩ := tight rfl
                have ih := serveOn_follows h (some q) s' r w' (t ++ b) hold hf' hb'
                unfold Follows at ih
                rcases ih with ⟨i1, i2, i3, i4, i5, i6⟩ | ⟨i1, i2, q', reqs, req', bs, res', s1, c, iq, j1, j2, j3, j4, j5, j6⟩
                · left
                  refine ⟨i1, by simp only [i2], i3, i4, ?_, fun hc => ?_⟩
                  · simpa using i5
                  · simpa using i6 hc
                · right
                  have hq' : q' = q := by
                    rcases iq with iq | iq
                    · cases iq
                    · injection iq with iq; exact iq.symm
                  subst hq'
                  refine ⟨?_, i2, q', req :: reqs, req', b :: bs, res', s1, c, hq, ?_, .cons hh hwr j2, j3, ?_, ?_, j6⟩
                  · exact (List.cons_prefix_cons).2 ⟨rfl, i1⟩
                  · simp only [j1]; rfl
                  · simpa using j4
                  · simpa using j5
termination_by i.length
decreasing_by exact readRequest_lt hr

/-- A new connection on the server's side. -/
theorem server_all {σ : Type} (h : Handler σ) (s : σ) (i : Bytes) (fs : List Fate) :
    Follows h none s i [] (serveOn h none s i { net := { fates := fs } }) :=
  serveOn_follows h none s i _ [] (Writer.holds_fresh fs) rfl rfl

/-- **C76 (server, no failure).** On a connection whose writes do not fail, the buffer makes no difference: the server
calls the handler with the same requests as without it, ends in the same way, and has sent exactly the replies
by then. -/
theorem C76_server_same {σ : Type} (h : Handler σ) (s : σ) (i : Bytes) (fs : List Fate) (hfs : ∀ f ∈ fs, f = .all) :
    let S := serveOn h none s i { net := { fates := fs } }
    S.handled = (serve h none s i).handled ∧ S.state = (serve h none s i).state ∧ S.fin = (serve h none s i).fin
      ∧ ((serve h none s i).fin = .closed → S.out.net.sent = (serve h none s i).out) := by
  intro S
  have sound : ∀ (n : Nat) (p : Option Protocol) (s : σ) (i : Bytes) (w : Writer), i.length ≤ n → Writer.Sound w →
      Writer.Sound (serveOn h p s i w).out := by
    intro n
    induction n with
    | zero =>
      intro p s i w hi hw
      rw [serveOn]
      cases hr : readRequest p i with
      | mk x r =>
        cases x with
        | err e => exact hw
        | panic => exact hw
        | ok y => exact absurd (readRequest_lt hr) (by omega)
    | succ n ih =>
      intro p s i w hi hw
      rw [serveOn]
      cases hr : readRequest p i with
      | mk x r =>
        cases x with
        | err e => exact hw
        | panic => exact hw
        | ok y =>
          obtain ⟨q, req⟩ := y
          simp only
          have hlt := readRequest_lt hr
          cases hh : h s req with
          | mk z s' =>
            cases z with
            | err e => exact hw
            | panic => exact hw
            | ok res =>
              simp only
              have hrs := run_sound (Srv.Puts.response q req res) w hw
              cases hrun : Put.run (Srv.Puts.response q req res) w with
              | mk o w' =>
                rw [hrun] at hrs
                cases o with
                | err e => exact hrs
                | panic => exact hrs
                | ok u => exact ih (some q) s' r w' (by omega) hrs
  rcases server_all h s i fs with ⟨_, h2, h3, h4, _, h6⟩ | ⟨_, hf, _⟩
  · exact ⟨h2, h3, h4, by simpa using h6⟩
  · have := (sound _ none s i { net := { fates := fs } } (Nat.le_refl _) ⟨rfl, hfs⟩).1
    rw [this] at hf; cases hf

/-- **C76 (server, failure).** Whatever the connection does: either no write failed and the server did what it does on a
perfect connection, or the server stopped serving the connection at the reply that could not be written.  Then it has
called the handler with the requests up to that one (which has taken effect) and with none after it, all replies to the
earlier requests have been sent in full, of the last one some prefix. -/
theorem C76_server {σ : Type} (h : Handler σ) (s : σ) (i : Bytes) (fs : List Fate) :
    let S := serveOn h none s i { net := { fates := fs } }
    ((∀ w ∈ S.out.net.writes, w.ok = true) ∧ S.handled = (serve h none s i).handled
      ∧ S.state = (serve h none s i).state ∧ S.fin = (serve h none s i).fin
      ∧ (serve h none s i).out <+: S.out.net.sent
      ∧ ((serve h none s i).fin = .closed → S.out.net.sent = (serve h none s i).out))
    ∨ ((∃ w ∈ S.out.net.writes, w.ok = false) ∧ S.handled <+: (serve h none s i).handled
      ∧ ∃ q reqs req replies res s1 last, S.handled = reqs ++ [req] ∧ Replied h q s reqs replies s1
        ∧ h s1 req = (.ok res, S.state)
        ∧ replies.flatten <+: S.out.net.sent ∧ S.out.net.sent <+: replies.flatten ++ last
        ∧ ∀ b, writeResponse q req res = .ok b → last = b ∧ S.fin = .closed) := by
  intro S
  have logged : ∀ (n : Nat) (p : Option Protocol) (s : σ) (i : Bytes) (w : Writer), i.length ≤ n → Writer.Logged w →
      Writer.Logged (serveOn h p s i w).out := by
    intro n
    induction n with
    | zero =>
      intro p s i w hi hw
      rw [serveOn]
      cases hr : readRequest p i with
      | mk x r =>
        cases x with
        | err e => exact hw
        | panic => exact hw
        | ok y => exact absurd (readRequest_lt hr) (by omega)
    | succ n ih =>
      intro p s i w hi hw
      rw [serveOn]
      cases hr : readRequest p i with
      | mk x r =>
        cases x with
        | err e => exact hw
        | panic => exact hw
        | ok y =>
          obtain ⟨q, req⟩ := y
          simp only
          have hlt := readRequest_lt hr
          cases hh : h s req with
          | mk z s' =>
            cases z with
            | err e => exact hw
            | panic => exact hw
            | ok res =>
              simp only
              have hrs := run_logged (Srv.Puts.response q req res) w hw
              cases hrun : Put.run (Srv.Puts.response q req res) w with
              | mk o w' =>
                rw [hrun] at hrs
                cases o with
                | err e => exact hrs
                | panic => exact hrs
                | ok u => exact ih (some q) s' r w' (by omega) hrs
  have hl : Writer.Logged S.out := logged _ none s i _ (Nat.le_refl _) (Writer.logged_fresh fs)
  rcases server_all h s i fs with ⟨h1, h2, h3, h4, h5, h6⟩ | ⟨h1, hf, q, reqs, req, bs, res, s1, b, _, j1, j2, j3, j4, j5, j6⟩
  · exact .inl ⟨Writer.logged_ok hl h1, h2, h3, h4, by simpa using h5, by simpa using h6⟩
  · exact .inr ⟨(Writer.logged_iff hl).1 hf, h1, q, reqs, req, bs, res, s1, b, j1, j2, j3, by simpa using j4, by simpa using j5, j6⟩

/-- A handler that counts its calls. -/
def tallying : Handler Nat := fun n _ => (.ok [{ key := b!"a", value := b!"xy" }], n + 1)

/-- Three requests, the second reply cut after four bytes: the handler saw two requests, the connection is closed. -/
theorem C76_server_concrete :
    let S := serveOn tallying none 0 b!"get a\r\nget a\r\nget a\r\n" { net := { fates := [.all, .cut 4] } }
    S.handled.length = 2 ∧ S.state = 2 ∧ S.fin = .closed ∧ S.out.net.sent = b!"VALUE a 0 2\r\nxy\r\nEND\r\nVALU" := by
  decide +kernel

end Props
end Verif
