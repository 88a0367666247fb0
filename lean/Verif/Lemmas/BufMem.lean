import Verif.Go.BufMem
import Verif.Props.Memory
/-!
The `bufio.Reader` on memory (`Go/BufMem.lean`) does what the one on values (`Go/Bufio.lean`) does, and writes into its
buffer and the slice to be filled only.
-/

namespace Verif
namespace Mem
open Props

/-- The memory of a connection is as it should be: `A` is the array of the buffer, `H` that of the response header. -/
structure Ok (A H : Nat) (c : MSock) : Prop where
  arr : c.arr = A
  hdr : c.hdr = H
  ne : A ≠ H
  la : A < c.mem.length
  lh : H < c.mem.length
  len : (array c.mem A).length = bufSize
  lenH : (array c.mem H).length = 24
  rw : c.r ≤ c.w
  w : c.w ≤ bufSize

/-- What existed before is as before, but for the buffer and the header. -/
structure Frame (A H : Nat) (m m' : Memory) : Prop where
  len : m.length ≤ m'.length
  same : ∀ a, a < m.length → a ≠ A → a ≠ H → array m' a = array m a

theorem Frame.refl (A H : Nat) (m : Memory) : Frame A H m m := ⟨Nat.le_refl _, fun _ _ _ _ => rfl⟩

theorem Frame.trans {A H : Nat} {m m' m'' : Memory} (h : Frame A H m m') (h' : Frame A H m' m'') : Frame A H m m'' :=
  ⟨Nat.le_trans h.len h'.len, fun a ha h1 h2 => by
    rw [h'.same a (Nat.lt_of_lt_of_le ha h.len) h1 h2, h.same a ha h1 h2]⟩

theorem splice_length (a bs : Bytes) (pos : Nat) (h : pos + bs.length ≤ a.length) :
    (splice a pos bs).length = a.length := by
  unfold splice
  simp only [List.length_append, List.length_take, List.length_drop]
  omega

theorem write_len (m : Memory) (a pos : Nat) (bs : Bytes) : (write m a pos bs).length = m.length := by
  simp [write]

theorem write_same (m : Memory) (a pos : Nat) (bs : Bytes) (ha : a < m.length) :
    array (write m a pos bs) a = splice (array m a) pos bs := by
  unfold write; rw [array_set _ _ _ _ ha, if_pos rfl]

theorem write_other (m : Memory) (a b pos : Nat) (bs : Bytes) (ha : a < m.length) (h : b ≠ a) :
    array (write m a pos bs) b = array m b := by
  unfold write; rw [array_set _ _ _ _ ha, if_neg h]

theorem Ok.buf {A H : Nat} {c : MSock} (h : Ok A H c) : c.sock.buf.length = c.w - c.r := by
  have h1 := h.len
  have h2 := h.w
  have h3 := h.rw
  simp only [MSock.sock, h.arr, List.length_take, List.length_drop, h1]
  omega

theorem piece_len (c : Sock) (m : Nat) (hm : 0 < m) : (c.piece m).length ≤ m := by
  simp only [Sock.piece, Sock.got, List.length_take]; omega

/-- Memory changed in array `a` only, in place. -/
structure Only (a : Nat) (m m' : Memory) : Prop where
  len : m'.length = m.length
  same : ∀ b, b ≠ a → array m' b = array m b
  alen : (array m' a).length = (array m a).length

theorem only_write (m : Memory) (a pos : Nat) (bs : Bytes) (ha : a < m.length) (h : pos + bs.length ≤ (array m a).length) :
    Only a m (write m a pos bs) :=
  ⟨write_len _ _ _ _, fun b hb => write_other _ _ _ _ _ ha hb, by rw [write_same _ _ _ _ ha, splice_length _ _ _ h]⟩

theorem Only.trans {a : Nat} {m m' m'' : Memory} (h : Only a m m') (h' : Only a m' m'') : Only a m m'' :=
  ⟨h'.len.trans h.len, fun b hb => (h'.same b hb).trans (h.same b hb), h'.alen.trans h.alen⟩

theorem Only.refl (a : Nat) (m : Memory) : Only a m m := ⟨rfl, fun _ _ => rfl, rfl⟩

theorem Only.lens {a : Nat} {m m' : Memory} (h : Only a m m') (b : Nat) : (array m' b).length = (array m b).length := by
  by_cases hb : b = a
  · subst hb; exact h.alen
  · rw [h.same b hb]

theorem Only.frame {A H : Nat} {m m' : Memory} (h : Only A m m') : Frame A H m m' :=
  ⟨Nat.le_of_eq h.len.symm, fun a _ h1 _ => h.same a h1⟩

theorem slide_spec {A H : Nat} {c : MSock} (h : Ok A H c) :
    c.slide.sock = c.sock ∧ Ok A H c.slide ∧ Only A c.mem c.slide.mem ∧ c.slide.w = c.w - c.r ∧ c.slide.r = 0 := by
  have hb := h.buf
  have h1 := h.len
  have h2 := h.w
  have h3 := h.rw
  unfold MSock.slide
  by_cases hr : 0 < c.r
  · rw [if_pos hr]
    have ho : Only A c.mem (write c.mem c.arr 0 c.sock.buf) := by
      rw [h.arr]; exact only_write _ _ _ _ h.la (by omega)
    refine ⟨?_, ⟨h.arr, h.hdr, h.ne, ?_, ?_, ?_, ?_, ?_, ?_⟩, ho, rfl, rfl⟩
    · have e : ((array (write c.mem c.arr 0 c.sock.buf) c.arr).drop 0).take (c.w - c.r - 0) = c.sock.buf := by
        rw [h.arr, write_same _ _ _ _ h.la, List.drop_zero, Nat.sub_zero, ← hb]
        unfold splice
        simp
      show Sock.mk _ _ _ _ = _
      rw [e]; rfl
    · show A < (write c.mem c.arr 0 c.sock.buf).length
      rw [ho.len]; exact h.la
    · show H < (write c.mem c.arr 0 c.sock.buf).length
      rw [ho.len]; exact h.lh
    · show (array (write c.mem c.arr 0 c.sock.buf) A).length = _
      rw [ho.lens]; exact h.len
    · show (array (write c.mem c.arr 0 c.sock.buf) H).length = _
      rw [ho.lens]; exact h.lenH
    · exact Nat.zero_le _
    · show c.w - c.r ≤ bufSize; omega
  · rw [if_neg hr]
    exact ⟨rfl, h, Only.refl _ _, by omega, by omega⟩

theorem more_spec {A H : Nat} {c : MSock} (h : Ok A H c) (hr : c.r = 0) (hw : c.w < bufSize) :
    c.more.sock = c.sock.fill ∧ Ok A H c.more ∧ Only A c.mem c.more.mem := by
  have hb := h.buf
  have h1 := h.len
  have h3 := h.rw
  have hp := piece_len c.sock (bufSize - c.w) (by omega)
  have ho : Only A c.mem (write c.mem c.arr c.w (c.sock.piece (bufSize - c.w))) := by
    rw [h.arr]; exact only_write _ _ _ _ h.la (by omega)
  unfold MSock.more
  refine ⟨?_, ⟨h.arr, h.hdr, h.ne, ?_, ?_, ?_, ?_, ?_, ?_⟩, ho⟩
  · have e : ((array (write c.mem c.arr c.w (c.sock.piece (bufSize - c.w))) c.arr).drop c.r).take
          (c.w + (c.sock.piece (bufSize - c.w)).length - c.r) = c.sock.buf ++ c.sock.piece (bufSize - c.w) := by
      rw [h.arr, write_same _ _ _ _ h.la]
      have := splice_read (array c.mem A) (c.sock.piece (bufSize - c.w)) c.r (c.w - c.r) (by omega)
      have e1 : c.r + (c.w - c.r) = c.w := by omega
      have e2 : c.w - c.r + (c.sock.piece (bufSize - c.w)).length = c.w + (c.sock.piece (bufSize - c.w)).length - c.r := by
        omega
      rw [e1, e2] at this
      rw [this]
      simp only [MSock.sock, h.arr]
    show Sock.mk _ _ _ _ = _
    rw [e]
    unfold Sock.fill
    rw [hb, hr, Nat.sub_zero]
    rfl
  · show A < (write c.mem c.arr c.w (c.sock.piece (bufSize - c.w))).length
    rw [ho.len]; exact h.la
  · show H < (write c.mem c.arr c.w (c.sock.piece (bufSize - c.w))).length
    rw [ho.len]; exact h.lh
  · show (array (write c.mem c.arr c.w (c.sock.piece (bufSize - c.w))) A).length = _
    rw [ho.lens]; exact h.len
  · show (array (write c.mem c.arr c.w (c.sock.piece (bufSize - c.w))) H).length = _
    rw [ho.lens]; exact h.lenH
  · show c.r ≤ c.w + _; omega
  · show c.w + _ ≤ bufSize; omega

theorem fill_spec {A H : Nat} {c : MSock} (h : Ok A H c) (hw : c.w - c.r < bufSize) :
    c.fill.sock = c.sock.fill ∧ Ok A H c.fill ∧ Only A c.mem c.fill.mem := by
  obtain ⟨s1, s2, s3, s4, s5⟩ := slide_spec h
  obtain ⟨m1, m2, m3⟩ := more_spec s2 s5 (by omega)
  exact ⟨m1.trans (by rw [s1]), m2, s3.trans m3⟩

theorem Ok.drop {A H : Nat} {c : MSock} (h : Ok A H c) (k : Nat) (hk : k ≤ c.w - c.r) :
    Ok A H { c with r := c.r + k } ∧ ({ c with r := c.r + k } : MSock).sock = { c.sock with buf := c.sock.buf.drop k } := by
  have h3 := h.rw
  refine ⟨⟨h.arr, h.hdr, h.ne, h.la, h.lh, h.len, h.lenH, by show c.r + k ≤ c.w; omega, h.w⟩, ?_⟩
  have e : ((array c.mem c.arr).drop (c.r + k)).take (c.w - (c.r + k)) = c.sock.buf.drop k := by
    simp only [MSock.sock]
    rw [List.drop_take, List.drop_drop, Nat.sub_sub]
  show Sock.mk _ _ _ _ = _
  rw [e]; rfl

theorem Ok.empty {A H : Nat} {c : MSock} (h : Ok A H c) :
    Ok A H { c with r := c.w } ∧ ({ c with r := c.w } : MSock).sock = { c.sock with buf := [] } := by
  have h3 := h.rw
  have := h.drop (c.w - c.r) (Nat.le_refl _)
  have e : c.r + (c.w - c.r) = c.w := by omega
  rw [e] at this
  refine ⟨this.1, this.2.trans ?_⟩
  have : c.sock.buf.drop (c.w - c.r) = [] := List.drop_of_length_le (by rw [h.buf]; exact Nat.le_refl _)
  rw [this]

/-- How the two `ReadSlice`s compare. -/
def LineMatch (c : MSock) : Bufio.Slice → Line → Prop
  | .line b, .line s => s.bytes c.mem = b ∧ s.len = b.length
  | .ended _, .ended => True
  | .full _, .full => True
  | _, _ => False

theorem sliceLoop_sim {A H : Nat} (s : Nat) (c : MSock) (h : Ok A H c) :
    LineMatch (sliceLoop s c).2 (Bufio.sliceLoop s c.sock).1 (sliceLoop s c).1
      ∧ (sliceLoop s c).2.sock = (Bufio.sliceLoop s c.sock).2 ∧ Ok A H (sliceLoop s c).2
      ∧ Only A c.mem (sliceLoop s c).2.mem := by
  fun_induction sliceLoop s c with
  | case1 s c l r hs =>
    have e := (splitLine_some hs).1
    have hb := h.buf
    have hl := congrArg List.length e
    simp only [List.length_append, List.length_drop] at hl
    have hpos : 0 < l.length := by
      cases l with
      | nil =>
        exfalso
        cases hd : c.sock.buf.drop s with
        | nil => rw [hd] at hs; cases hs
        | cons x xs =>
          rw [hd] at hs
          simp only [splitLine] at hs
          split at hs
          · cases hs
          · cases hq : splitLine xs with
            | none => rw [hq] at hs; cases hs
            | some q => rw [hq] at hs; cases hs
      | cons => simp
    have hsl : s + l.length + r.length = c.w - c.r := by omega
    obtain ⟨k1, k2⟩ := h.drop (s + l.length) (by omega)
    have ex : Bufio.sliceLoop s c.sock = (.line (c.sock.buf.take s ++ l), { c.sock with buf := r }) := by
      rw [Bufio.sliceLoop.eq_1]
      split
      · rename_i l' r' hs'
        rw [hs] at hs'
        injection hs' with hs'
        injection hs' with h1 h2
        subst h1; subst h2; rfl
      · rename_i hs'
        rw [hs] at hs'; cases hs'
    have edec : c.sock.buf = c.sock.buf.take s ++ l ++ r := by
      rw [List.append_assoc, ← e, List.take_append_drop]
    have etl : (c.sock.buf.take s ++ l).length = s + l.length := by
      rw [List.length_append, List.length_take]; omega
    rw [ex]
    refine ⟨⟨?_, ?_⟩, ?_, k1, Only.refl _ _⟩
    · show ((array c.mem c.arr).drop c.r).take (s + l.length) = _
      have : (c.sock.buf).take (s + l.length) = c.sock.buf.take s ++ l := by
        conv => lhs; rw [edec]
        rw [← etl, List.take_left]
      rw [← this]
      simp only [MSock.sock]
      rw [List.take_take, Nat.min_eq_left (by omega)]
    · exact etl.symm
    · refine k2.trans ?_
      have : c.sock.buf.drop (s + l.length) = r := by
        conv => lhs; rw [edec]
        rw [← etl, List.drop_left]
      rw [this]
  | case2 s c hs hf =>
    obtain ⟨k1, k2⟩ := h.empty
    rw [Bufio.sliceLoop.eq_1]
    split
    · rename_i hs'; rw [hs] at hs'; cases hs'
    · rw [if_pos (by rw [h.buf]; exact hf)]
      exact ⟨trivial, k2, k1, Only.refl _ _⟩
  | case3 s c hs hf hn =>
    obtain ⟨k1, k2⟩ := h.empty
    rw [Bufio.sliceLoop.eq_1]
    split
    · rename_i hs'; rw [hs] at hs'; cases hs'
    · rw [if_neg (by rw [h.buf]; exact hf), dif_pos (show c.sock.net = [] from hn)]
      exact ⟨trivial, k2, k1, Only.refl _ _⟩
  | case4 s c hs hf hn ih =>
    obtain ⟨f1, f2, f3⟩ := fill_spec h (by omega)
    obtain ⟨i1, i2, i3, i4⟩ := ih f2
    have ex : Bufio.sliceLoop s c.sock = Bufio.sliceLoop (c.w - c.r) c.fill.sock := by
      rw [Bufio.sliceLoop.eq_1]
      split
      · rename_i hs'; rw [hs] at hs'; cases hs'
      · rw [if_neg (by rw [h.buf]; exact hf), dif_neg (show ¬ c.sock.net = [] from hn), h.buf, f1]
    rw [ex]
    exact ⟨i1, i2, i3, f3.trans i4⟩

/-- Memory changed in arrays `A` and `a` only, in place. -/
structure Only2 (A a : Nat) (m m' : Memory) : Prop where
  len : m'.length = m.length
  same : ∀ b, b ≠ A → b ≠ a → array m' b = array m b
  lens : ∀ b, (array m' b).length = (array m b).length

theorem Only2.refl (A a : Nat) (m : Memory) : Only2 A a m m := ⟨rfl, fun _ _ _ => rfl, fun _ => rfl⟩

theorem Only2.trans {A a : Nat} {m m' m'' : Memory} (h : Only2 A a m m') (h' : Only2 A a m' m'') : Only2 A a m m'' :=
  ⟨h'.len.trans h.len, fun b h1 h2 => (h'.same b h1 h2).trans (h.same b h1 h2), fun b => (h'.lens b).trans (h.lens b)⟩

theorem Only.two {A a : Nat} {m m' : Memory} (h : Only A m m') : Only2 A a m m' :=
  ⟨h.len, fun b h1 _ => h.same b h1, h.lens⟩

theorem Only.two' {A a : Nat} {m m' : Memory} (h : Only a m m') : Only2 A a m m' :=
  ⟨h.len, fun b _ h2 => h.same b h2, h.lens⟩

/-- Writing elsewhere does not disturb the connection. -/
theorem Ok.elsewhere {A H : Nat} {c : MSock} (h : Ok A H c) {a : Nat} (ha : a ≠ A) {m : Memory} (ho : Only a c.mem m) :
    Ok A H { c with mem := m } ∧ ({ c with mem := m } : MSock).sock = c.sock := by
  refine ⟨⟨h.arr, h.hdr, h.ne, ?_, ?_, ?_, ?_, h.rw, h.w⟩, ?_⟩
  · show A < m.length; rw [ho.len]; exact h.la
  · show H < m.length; rw [ho.len]; exact h.lh
  · show (array m A).length = _; rw [ho.lens]; exact h.len
  · show (array m H).length = _; rw [ho.lens]; exact h.lenH
  · simp only [MSock.sock, h.arr]
    rw [ho.same A (Ne.symm ha)]

theorem read_sim {A H : Nat} (a off n : Nat) (c : MSock) (h : Ok A H c) (ha : a ≠ A) (hl : a < c.mem.length)
    (hn : 0 < n) (hs : off + n ≤ (array c.mem a).length) :
    (read a off n c).2.sock = (Bufio.read n c.sock).2 ∧ Ok A H (read a off n c).2 ∧ Only2 A a c.mem (read a off n c).2.mem
      ∧ ((Bufio.read n c.sock).1 = none ∧ (read a off n c).1 = none
        ∨ ∃ p, (Bufio.read n c.sock).1 = some p ∧ (read a off n c).1 = some p.length
          ∧ array (read a off n c).2.mem a = splice (array c.mem a) off p ∧ p.length ≤ n) := by
  have hb := h.buf
  have h1 := h.len
  have h2 := h.w
  have h3 := h.rw
  unfold read Bufio.read
  by_cases he : c.r = c.w
  · have hbe : c.sock.buf = [] := List.length_eq_zero_iff.1 (by omega)
    rw [if_pos he, if_pos hbe]
    by_cases hnet : c.net = []
    · rw [if_pos hnet, if_pos (show c.sock.net = [] from hnet)]
      exact ⟨rfl, h, Only2.refl _ _ _, .inl ⟨rfl, rfl⟩⟩
    · rw [if_neg hnet, if_neg (show ¬ c.sock.net = [] from hnet)]
      by_cases hbig : bufSize ≤ n
      · rw [if_pos hbig, if_pos hbig]
        have hp := piece_len c.sock n hn
        have ho : Only a c.mem (write c.mem a off (c.sock.piece n)) := only_write _ _ _ _ hl (by omega)
        obtain ⟨o1, o2⟩ := h.elsewhere ha ho
        refine ⟨?_, ⟨h.arr, h.hdr, h.ne, o1.la, o1.lh, o1.len, o1.lenH, h.rw, h.w⟩, ho.two',
          .inr ⟨_, rfl, rfl, write_same _ _ _ _ hl, hp⟩⟩
        have : ({ c with mem := write c.mem a off (c.sock.piece n) } : MSock).sock.buf = c.sock.buf := by rw [o2]
        show Sock.mk _ _ _ _ = Sock.mk _ _ _ _
        congr 1
      · rw [if_neg hbig, if_neg hbig]
        have hp := piece_len c.sock bufSize (by decide)
        have ho : Only A c.mem (write c.mem c.arr 0 (c.sock.piece bufSize)) := by
          rw [h.arr]; exact only_write _ _ _ _ h.la (by omega)
        have ho2 : Only a (write c.mem c.arr 0 (c.sock.piece bufSize))
            (write (write c.mem c.arr 0 (c.sock.piece bufSize)) a off ((c.sock.piece bufSize).take n)) := by
          refine only_write _ _ _ _ (by rw [ho.len]; exact hl) ?_
          rw [ho.lens, List.length_take]; omega
        have ht := ho.two.trans (ho2.two' (A := A))
        refine ⟨?_, ⟨h.arr, h.hdr, h.ne, ?_, ?_, ?_, ?_, ?_, ?_⟩, ht, .inr ⟨_, rfl, rfl, ?_, ?_⟩⟩
        · have e : ((array (write (write c.mem c.arr 0 (c.sock.piece bufSize)) a off ((c.sock.piece bufSize).take n))
              c.arr).drop ((c.sock.piece bufSize).take n).length).take
                ((c.sock.piece bufSize).length - ((c.sock.piece bufSize).take n).length)
              = (c.sock.piece bufSize).drop n := by
            have e0 := ho2.same A (Ne.symm ha)
            rw [h.arr] at e0 ⊢
            rw [e0, write_same _ _ _ _ h.la]
            unfold splice
            rw [List.take_zero, List.nil_append, Nat.zero_add, ← List.drop_take]
            rw [List.take_left]
            rw [List.length_take]
            by_cases hx : n ≤ (c.sock.piece bufSize).length
            · rw [Nat.min_eq_left hx]
            · rw [Nat.min_eq_right (by omega), List.drop_of_length_le (Nat.le_refl _), List.drop_of_length_le (by omega)]
          show Sock.mk _ _ _ _ = _
          rw [e]; rfl
        · show A < (write _ a off _).length; rw [ht.len]; exact h.la
        · show H < (write _ a off _).length; rw [ht.len]; exact h.lh
        · show (array (write _ a off _) A).length = _; rw [ht.lens]; exact h.len
        · show (array (write _ a off _) H).length = _; rw [ht.lens]; exact h.lenH
        · show ((c.sock.piece bufSize).take n).length ≤ (c.sock.piece bufSize).length
          rw [List.length_take]; omega
        · exact hp
        · show array (write _ a off _) a = _
          rw [write_same _ _ _ _ (by rw [ho.len]; exact hl), ho.same a ha]
        · rw [List.length_take]; omega
  · have hbe : c.sock.buf ≠ [] := fun e => by rw [e] at hb; simp at hb; omega
    rw [if_neg he, if_neg hbe]
    have ho : Only a c.mem (write c.mem a off (c.sock.buf.take n)) :=
      only_write _ _ _ _ hl (by rw [List.length_take]; omega)
    obtain ⟨o1, o2⟩ := h.elsewhere ha ho
    obtain ⟨d1, d2⟩ := o1.drop (c.sock.buf.take n).length (by show _ ≤ c.w - c.r; rw [List.length_take]; omega)
    refine ⟨?_, d1, ho.two', .inr ⟨_, rfl, rfl, write_same _ _ _ _ hl, by rw [List.length_take]; omega⟩⟩
    refine d2.trans ?_
    rw [o2]
    have : c.sock.buf.drop (c.sock.buf.take n).length = c.sock.buf.drop n := by
      rw [List.length_take]
      by_cases hx : n ≤ c.sock.buf.length
      · rw [Nat.min_eq_left hx]
      · rw [Nat.min_eq_right (by omega), List.drop_of_length_le (Nat.le_refl _), List.drop_of_length_le (by omega)]
    rw [this]

theorem splice_take (a bs : Bytes) (off : Nat) (h : off ≤ a.length) :
    (splice a off bs).take (off + bs.length) = a.take off ++ bs := by
  unfold splice
  have : (a.take off ++ bs).length = off + bs.length := by
    rw [List.length_append, List.length_take]; omega
  rw [← this, List.take_left]

theorem fullLoop_sim {A H : Nat} (k a off n : Nat) (c : MSock) (h : Ok A H c) (ha : a ≠ A) (hl : a < c.mem.length)
    (hs : off + n ≤ (array c.mem a).length) (hk : n ≤ k) :
    (fullLoop k a off n c).2.sock = (Bufio.fullLoop n ((array c.mem a).take off) c.sock).2
      ∧ Ok A H (fullLoop k a off n c).2 ∧ Only2 A a c.mem (fullLoop k a off n c).2.mem
      ∧ ((∃ e, (Bufio.fullLoop n ((array c.mem a).take off) c.sock).1 = .err e ∧ (fullLoop k a off n c).1 = .err e)
        ∨ ∃ b, (Bufio.fullLoop n ((array c.mem a).take off) c.sock).1 = .ok b ∧ (fullLoop k a off n c).1 = .ok ()
          ∧ (array (fullLoop k a off n c).2.mem a).take (off + n) = b) := by
  induction k generalizing off n c with
  | zero =>
    obtain rfl : n = 0 := by omega
    rw [Bufio.fullLoop.eq_1, dif_pos rfl]
    exact ⟨rfl, h, Only2.refl _ _ _, .inr ⟨_, rfl, rfl, rfl⟩⟩
  | succ k ih =>
    by_cases hn : n = 0
    · subst hn
      rw [Bufio.fullLoop.eq_1, dif_pos rfl]
      have e : fullLoop (k + 1) a off 0 c = (.ok (), c) := by simp [fullLoop]
      rw [e]
      exact ⟨rfl, h, Only2.refl _ _ _, .inr ⟨_, rfl, rfl, rfl⟩⟩
    · obtain ⟨r1, r2, r3, r4⟩ := read_sim a off n c h ha hl (by omega) hs
      rw [Bufio.fullLoop.eq_1, dif_neg hn]
      have e : fullLoop (k + 1) a off n c = match read a off n c with
        | (none, c') => (.err .io, c')
        | (some p, c') => fullLoop k a (off + p) (n - p) c' := by
        rw [fullLoop, if_neg hn]
        rcases read a off n c with ⟨_ | p, c'⟩ <;> rfl
      rw [e]
      rcases r4 with ⟨q1, q2⟩ | ⟨p, q1, q2, q3, q4⟩
      · cases hq : Bufio.read n c.sock with
        | mk x s' =>
          cases hm : read a off n c with
          | mk y c' =>
            rw [hq] at q1 r1; rw [hm] at q2 r1 r2 r3
            cases q1; cases q2
            split
            · rename_i hh; cases hh
              exact ⟨r1, r2, r3, .inl ⟨_, rfl, rfl⟩⟩
            · rename_i hh; cases hh
      · cases hq : Bufio.read n c.sock with
        | mk x s' =>
          cases hm : read a off n c with
          | mk y c' =>
            rw [hq] at q1 r1; rw [hm] at q2 r1 r2 r3 q3
            obtain ⟨_, hp1, hp2⟩ := Bufio.read_some n c.sock (by omega) (hq.trans (by rw [show x = some p from q1]))
            cases q1; cases q2
            split
            · rename_i hh; cases hh
            · rename_i p' s'' hh
              injection hh with hh1 hh2
              injection hh1 with hh1
              subst hh1; subst hh2
              have hlen : (array c'.mem a).length = (array c.mem a).length := r3.lens a
              have i := ih (off + p.length) (n - p.length) c' r2 (by rw [r3.len]; exact hl)
                (by rw [hlen]; omega) (by omega)
              have et : (array c'.mem a).take (off + p.length) = (array c.mem a).take off ++ p := by
                have q3' : array c'.mem a = splice (array c.mem a) off p := q3
                rw [q3', splice_take _ _ _ (by omega)]
              have r1' : c'.sock = s' := r1
              rw [et, r1'] at i
              obtain ⟨i1, i2, i3, i4⟩ := i
              have eo : off + p.length + (n - p.length) = off + n := by omega
              rw [eo] at i4
              exact ⟨i1, i2, r3.trans i3, i4⟩

end Mem
end Verif
