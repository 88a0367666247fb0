import Verif.Go.Framing
/-!
`bufio.Reader` (bufio/bufio.go of go 1.20) and `io.ReadFull` over a connection that hands out
its bytes in pieces.  The readers of `Go/Basic.lean` see the byte stream only; here the buffer,
the calls of `Read` on the connection and their sizes are explicit.
-/

namespace Verif

/-- A `bufio.Reader` on a connection.  `buf` are the bytes in its buffer that were not consumed
yet (`b.buf[b.r:b.w]`), `net` the bytes that the connection will still deliver before it ends,
`cuts t` how many bytes the `t`-th `Read` on the connection would like to deliver (the segment
sizes, chosen by the network), `t` the number of `Read`s made so far. -/
structure Sock where
  buf : Bytes
  net : Bytes
  cuts : Nat → Nat
  t : Nat

namespace Sock

/-- Everything that is still to be read. (Auxiliary.) -/
def all (c : Sock) : Bytes := c.buf ++ c.net

/-- `Read(p)` of the connection with room for `m` bytes: as many bytes as the network has in this
segment, at least one, at most what fits and what there is. -/
def got (c : Sock) (m : Nat) : Nat := max 1 (min (c.cuts c.t) (min m c.net.length))

/-- The connection after that `Read`. (net.Conn.) -/
def took (c : Sock) (m : Nat) : Sock := { c with net := c.net.drop (c.got m), t := c.t + 1 }

/-- The bytes of that `Read`. -/
def piece (c : Sock) (m : Nat) : Bytes := c.net.take (c.got m)

/-- `b.fill()`, bufio.go: read into the free part of the buffer. -/
def fill (c : Sock) : Sock :=
  { c.took (bufSize - c.buf.length) with buf := c.buf ++ c.piece (bufSize - c.buf.length) }

theorem fill_net (c : Sock) (h : c.net ≠ []) : c.fill.net.length < c.net.length := by
  have : 0 < c.net.length := List.length_pos_iff.2 h
  simp only [fill, took, List.length_drop, got]
  omega

theorem took_net (c : Sock) (m : Nat) (h : c.net ≠ []) : (c.took m).net.length < c.net.length := by
  have : 0 < c.net.length := List.length_pos_iff.2 h
  simp only [took, List.length_drop, got]
  omega

end Sock

/-- A computation on a buffered connection.
(A read of the `bufio.ReadWriter` made at client/server.go:152 or server/server.go:74.) -/
def Crd (α : Type) := Sock → Res α × Sock

namespace Crd
variable {α β : Type}

/-- `return a, nil`. -/
def pure (a : α) : Crd α := fun c => (.ok a, c)
/-- `a, err := m; if err != nil { return err }; f(a)`. -/
def bind (m : Crd α) (f : α → Crd β) : Crd β := fun c =>
  match m c with
  | (.ok a, c') => f a c'
  | (.err e, c') => (.err e, c')
  | (.panic, c') => (.panic, c')
instance : Monad Crd where
  pure := Crd.pure
  bind := Crd.bind
/-- Return an error. (`return nil, err`.) -/
def fail (e : Err) : Crd α := fun c => (.err e, c)
/-- A step that does not touch the connection. (`strconv`, slice expressions.) -/
def lift (r : Res α) : Crd α := fun c => (r, c)

theorem bind_apply (m : Crd α) (f : α → Crd β) (c : Sock) :
    (m >>= f) c = match m c with
      | (.ok a, c') => f a c'
      | (.err e, c') => (.err e, c')
      | (.panic, c') => (.panic, c') := rfl
end Crd

namespace Bufio

/-- How `ReadSlice` ended: with a line, with the connection's error, or with a full buffer. (bufio.go.) -/
inductive Slice where
  | line (b : Bytes)
  | ended (b : Bytes)
  | full (b : Bytes)

/-- The loop of `ReadSlice('\n')`, bufio.go: look for LF in the buffer from offset `s` on; when
there is none, give up if the connection has ended or the buffer is full, else read more and look
only at the new bytes. -/
def sliceLoop (s : Nat) (c : Sock) : Slice × Sock :=
  match splitLine (c.buf.drop s) with
  | some (l, r) => (.line (c.buf.take s ++ l), { c with buf := r })
  | none =>
    if bufSize ≤ c.buf.length then (.full c.buf, { c with buf := [] })
    else if h : c.net = [] then (.ended c.buf, { c with buf := [] })
    else sliceLoop c.buf.length c.fill
termination_by c.net.length
decreasing_by exact c.fill_net h

/-- `ReadSlice('\n')` with its error. (bufio.go; used at client/server.go:217 and alike.) -/
def readSlice : Crd Bytes := fun c =>
  match sliceLoop 0 c with
  | (.line b, c') => (.ok b, c')
  | (.ended _, c') => (.err .io, c')
  | (.full _, c') => (.err .bufferFull, c')

theorem _root_.Verif.Sock.fill_all (c : Sock) : c.fill.all = c.all := by
  simp [Sock.fill, Sock.all, Sock.took, Sock.piece]

theorem _root_.Verif.Sock.fill_buf (c : Sock) (hb : c.buf.length < bufSize) : c.fill.buf.length ≤ bufSize := by
  simp only [Sock.fill, Sock.piece, Sock.got, List.length_append, List.length_take]
  omega

theorem splitLine_skip (p x l r : Bytes) (hp : 10 ∉ p) (h : splitLine x = some (l, r)) :
    splitLine (p ++ x) = some (p ++ l, r) := by
  induction p with
  | nil => exact h
  | cons a p ih =>
    have ha : a ≠ 10 := fun e => hp (by simp [e])
    have hp' : 10 ∉ p := fun e => hp (by simp [e])
    simp [splitLine, ha, ih hp']

/-- What the loop of `ReadSlice` returns, in terms of the byte stream. (Auxiliary, used in proofs only.) -/
def SliceSpec (a : Bytes) : Slice × Sock → Prop
  | (.line b, c') => splitLine a = some (b, c'.all) ∧ b.length ≤ bufSize ∧ c'.buf.length ≤ bufSize
  | (.ended b, c') => splitLine a = none ∧ a.length < bufSize ∧ c'.all = [] ∧ b = a ∧ c'.buf.length ≤ bufSize
  | (.full b, c') => a = b ++ c'.all ∧ 10 ∉ b ∧ b.length = bufSize ∧ c'.buf.length ≤ bufSize

theorem sliceLoop_spec (s : Nat) (c : Sock) (hb : c.buf.length ≤ bufSize) (hs : 10 ∉ c.buf.take s) :
    SliceSpec c.all (sliceLoop s c) := by
  fun_induction sliceLoop s c with
  | case1 s c l r h =>
    have h1 := splitLine_skip _ _ _ _ hs h
    rw [List.take_append_drop] at h1
    have h2 := splitLine_append_some c.net h1
    obtain ⟨e, _⟩ := splitLine_some h1
    have hl := congrArg List.length e
    rw [List.length_append] at hl
    refine ⟨h2, by omega, ?_⟩
    show r.length ≤ bufSize
    omega
  | case2 s c h hf =>
    rw [splitLine_none] at h
    refine ⟨rfl, ?_, by show c.buf.length = _; omega, Nat.zero_le _⟩
    rw [← List.take_append_drop s c.buf]
    simp only [List.mem_append, not_or]
    exact ⟨hs, h⟩
  | case3 s c h hf hn =>
    rw [splitLine_none] at h
    have : c.all = c.buf := by simp [Sock.all, hn]
    rw [this]
    refine ⟨?_, by omega, by simp [Sock.all, hn], rfl, Nat.zero_le _⟩
    rw [splitLine_none, ← List.take_append_drop s c.buf]
    simp only [List.mem_append, not_or]
    exact ⟨hs, h⟩
  | case4 s c h hf hn ih =>
    rw [splitLine_none] at h
    rw [← c.fill_all]
    refine ih (c.fill_buf (by omega)) ?_
    have : c.fill.buf.take c.buf.length = c.buf := by simp [Sock.fill]
    rw [this, ← List.take_append_drop s c.buf]
    simp only [List.mem_append, not_or]
    exact ⟨hs, h⟩

theorem sliceLoop_full (s : Nat) (c : Sock) : ∀ b c', sliceLoop s c = (.full b, c') → c'.all.length < c.all.length := by
  fun_induction sliceLoop s c with
  | case1 s c l r h => simp
  | case2 s c h hf =>
    intro b c' e
    obtain ⟨_, rfl⟩ := Prod.mk.inj e
    have : 0 < bufSize := by decide
    simp [Sock.all]; omega
  | case3 s c h hf hn => simp
  | case4 s c h hf hn ih =>
    intro b c' e
    rw [← c.fill_all]
    exact ih b c' e

/-- The loop of `collectFragments`, bufio.go: full buffers are put aside until a line end or the end of
the connection. -/
def bytesLoop (acc : Bytes) (c : Sock) : Res Bytes × Sock :=
  match h : sliceLoop 0 c with
  | (.line b, c') => (.ok (acc ++ b), c')
  | (.ended _, c') => (.err .io, c')
  | (.full b, c') => bytesLoop (acc ++ b) c'
termination_by c.all.length
decreasing_by exact sliceLoop_full 0 c b c' h

/-- `ReadBytes('\n')`, bufio.go. -/
def readBytes : Crd Bytes := fun c => bytesLoop [] c

/-- `Read(p)` of the `bufio.Reader` for `len(p) = n > 0`, bufio.go: `none` is the error of the
connection.  A large read with an empty buffer goes straight to the connection. -/
def read (n : Nat) (c : Sock) : Option Bytes × Sock :=
  if c.buf = [] then
    if c.net = [] then (none, c)
    else if bufSize ≤ n then (some (c.piece n), c.took n)
    else (some ((c.piece bufSize).take n), { c.took bufSize with buf := (c.piece bufSize).drop n })
  else (some (c.buf.take n), { c with buf := c.buf.drop n })

theorem read_some (n : Nat) (c : Sock) (hn : 0 < n) {p : Bytes} {c' : Sock} (h : read n c = (some p, c')) :
    c.all = p ++ c'.all ∧ p.length ≤ n ∧ 0 < p.length := by
  unfold read at h
  split at h
  · rename_i hb
    split at h
    · simp at h
    · rename_i hne
      have hl : 0 < c.net.length := List.length_pos_iff.2 hne
      split at h
      · obtain ⟨hp, rfl⟩ := Prod.mk.inj h
        cases hp
        refine ⟨?_, ?_, ?_⟩
        · simp [Sock.all, hb, Sock.piece, Sock.took]
        · simp only [Sock.piece, Sock.got, List.length_take]; omega
        · simp only [Sock.piece, Sock.got, List.length_take]; omega
      · obtain ⟨hp, rfl⟩ := Prod.mk.inj h
        cases hp
        refine ⟨?_, ?_, ?_⟩
        · simp only [Sock.all, hb, Sock.piece, Sock.took, List.nil_append]
          rw [← List.append_assoc, List.take_append_drop, List.take_append_drop]
        · simp only [List.length_take]; omega
        · simp only [Sock.piece, Sock.got, List.length_take]; omega
  · rename_i hb
    obtain ⟨hp, rfl⟩ := Prod.mk.inj h
    cases hp
    have : 0 < c.buf.length := List.length_pos_iff.2 hb
    refine ⟨?_, ?_, ?_⟩
    · simp only [Sock.all]; rw [← List.append_assoc, List.take_append_drop]
    · simp only [List.length_take]; omega
    · simp only [List.length_take]; omega

theorem read_none (n : Nat) (c : Sock) {c' : Sock} (h : read n c = (none, c')) : c.all = [] ∧ c' = c := by
  unfold read at h
  split at h
  · rename_i hb
    split at h
    · rename_i hne
      obtain ⟨_, rfl⟩ := Prod.mk.inj h
      exact ⟨by simp [Sock.all, hb, hne], rfl⟩
    · split at h <;> simp at h
  · simp at h

theorem read_buf (n : Nat) (c : Sock) (hb : c.buf.length ≤ bufSize) : (read n c).2.buf.length ≤ bufSize := by
  unfold read
  split
  · rename_i he
    split
    · exact hb
    · split
      · exact hb
      · simp only [Sock.piece, Sock.got, List.length_take, List.length_drop]
        omega
  · simp only [List.length_drop]; omega

/-- The loop of `io.ReadFull` (`io.ReadAtLeast`): read until `n` more bytes are there. -/
def fullLoop (n : Nat) (acc : Bytes) (c : Sock) : Res Bytes × Sock :=
  if hn : n = 0 then (.ok acc, c)
  else match h : read n c with
    | (none, c') => (.err .io, c')
    | (some p, c') => fullLoop (n - p.length) (acc ++ p) c'
termination_by n
decreasing_by
  have := read_some n c (by omega) h
  omega

/-- `io.ReadFull(conn, make([]byte, n))`. -/
def readFull (n : Nat) : Crd Bytes := fun c => fullLoop n [] c

/-- `make([]byte, n)` followed by `io.ReadFull`. -/
def readN (n : Int) : Crd Bytes := do
  let k ← Crd.lift (makeLen n)
  readFull k

/-- `Peek(1)`, bufio.go: fill the buffer if it is empty. (server/server.go:80.) -/
def peek1 : Crd UInt8 := fun c =>
  match c.buf with
  | b :: _ => (.ok b, c)
  | [] =>
    if c.net = [] then (.err .io, c)
    else match c.fill.buf with
      | b :: _ => (.ok b, c.fill)
      | [] => (.err .io, c.fill)

end Bufio

/-! ### A reader on the byte stream and its version on a buffered connection -/

/-- The reader `m` on the byte stream describes the reader `x` on a buffered connection: whatever
the pieces are in which the bytes come, the outcome is that of `m`, and what is left to read is what
`m` leaves. -/
def Sim {α : Type} (m : Rd α) (x : Crd α) : Prop :=
  ∀ c : Sock, c.buf.length ≤ bufSize →
    m c.all = ((x c).1, (x c).2.all) ∧ (x c).2.buf.length ≤ bufSize

variable {α β : Type}

theorem sim_pure (a : α) : Sim (pure a) (pure a) := fun _ h => ⟨rfl, h⟩
theorem sim_fail (e : Err) : Sim (Rd.fail e : Rd α) (Crd.fail e) := fun _ h => ⟨rfl, h⟩
theorem sim_lift (r : Res α) : Sim (Rd.lift r) (Crd.lift r) := fun _ h => ⟨rfl, h⟩

theorem Sim.bind {m : Rd α} {x : Crd α} {f : α → Rd β} {g : α → Crd β} (h : Sim m x) (hf : ∀ a, Sim (f a) (g a)) :
    Sim (m >>= f) (x >>= g) := by
  intro c hc
  obtain ⟨h1, h2⟩ := h c hc
  rw [Rd.bind_apply, Crd.bind_apply, h1]
  cases hx : x c with
  | mk r c' =>
    rw [hx] at h2
    cases r with
    | ok a => exact hf a c' h2
    | err e => exact ⟨rfl, h2⟩
    | panic => exact ⟨rfl, h2⟩

theorem sim_ite {p : Prop} [Decidable p] {m n : Rd α} {x y : Crd α} (h : Sim m x) (h' : Sim n y) :
    Sim (if p then m else n) (if p then x else y) := by split <;> assumption

theorem sim_readSlice : Sim readSlice Bufio.readSlice := by
  intro c hc
  have h := Bufio.sliceLoop_spec 0 c hc (by simp)
  unfold Bufio.readSlice readSlice
  cases hx : Bufio.sliceLoop 0 c with
  | mk s c' =>
    rw [hx] at h
    cases s with
    | line b =>
      obtain ⟨h1, h2, h3⟩ := h
      simp only [h1, h2, if_true]
      exact ⟨trivial, h3⟩
    | ended b =>
      obtain ⟨h1, h2, h3, _, h4⟩ := h
      have : ¬ bufSize ≤ c.all.length := by omega
      simp only [h1, this, if_false, h3]
      exact ⟨trivial, h4⟩
    | full b =>
      obtain ⟨h1, h2, h3, h4⟩ := h
      have hd : c.all.drop bufSize = c'.all := by rw [h1, ← h3, List.drop_left]
      have hl : bufSize ≤ c.all.length := by rw [h1, List.length_append]; omega
      refine ⟨?_, h4⟩
      simp only [hl, if_true, hd]
      cases hs : splitLine c.all with
      | none => rfl
      | some q =>
        obtain ⟨l, r⟩ := q
        have : b.length < l.length := by
          apply splitLine_long (t := c'.all) (r := r)
          · rw [splitLine_none]; exact h2
          · rw [← h1]; exact hs
        have : ¬ l.length ≤ bufSize := by omega
        simp [this]

theorem bytesLoop_spec (acc : Bytes) (c : Sock) (hc : c.buf.length ≤ bufSize) :
    (match splitLine c.all with
      | some (l, r) => (.ok (acc ++ l), r)
      | none => (.err .io, []) : Res Bytes × Bytes) = ((Bufio.bytesLoop acc c).1, (Bufio.bytesLoop acc c).2.all)
      ∧ (Bufio.bytesLoop acc c).2.buf.length ≤ bufSize := by
  fun_induction Bufio.bytesLoop acc c with
  | case1 acc c b c' h =>
    have hs := Bufio.sliceLoop_spec 0 c hc (by simp)
    rw [h] at hs
    obtain ⟨h1, h2, h3⟩ := hs
    simp only [h1]
    exact ⟨trivial, h3⟩
  | case2 acc c b c' h =>
    have hs := Bufio.sliceLoop_spec 0 c hc (by simp)
    rw [h] at hs
    obtain ⟨h1, h2, h3, _, h4⟩ := hs
    simp only [h1, h3]
    exact ⟨trivial, h4⟩
  | case3 acc c b c' h ih =>
    have hs := Bufio.sliceLoop_spec 0 c hc (by simp)
    rw [h] at hs
    obtain ⟨h1, h2, h3, h4⟩ := hs
    obtain ⟨i1, i2⟩ := ih h4
    refine ⟨?_, i2⟩
    rw [← i1, h1]
    cases hq : splitLine c'.all with
    | none =>
      have : splitLine (b ++ c'.all) = none := by
        rw [splitLine_none] at hq ⊢
        simp only [List.mem_append, not_or]
        exact ⟨h2, hq⟩
      simp only [this]
    | some q =>
      obtain ⟨l, r⟩ := q
      simp only [Bufio.splitLine_skip b _ _ _ h2 hq, List.append_assoc]

theorem sim_readBytes : Sim readBytes Bufio.readBytes := by
  intro c hc
  have := bytesLoop_spec [] c hc
  simp only [List.nil_append] at this
  exact this

theorem fullLoop_spec (n : Nat) (acc : Bytes) (c : Sock) (hc : c.buf.length ≤ bufSize) :
    (if n ≤ c.all.length then (.ok (acc ++ c.all.take n), c.all.drop n) else (.err .io, []) : Res Bytes × Bytes)
      = ((Bufio.fullLoop n acc c).1, (Bufio.fullLoop n acc c).2.all)
      ∧ (Bufio.fullLoop n acc c).2.buf.length ≤ bufSize := by
  fun_induction Bufio.fullLoop n acc c with
  | case1 acc c => simp [hc]
  | case2 n acc c hn c' h =>
    obtain ⟨h1, rfl⟩ := Bufio.read_none n _ h
    rw [h1]
    simp [hn, hc]
  | case3 n acc c hn p c' h ih =>
    obtain ⟨h1, h2, h3⟩ := Bufio.read_some n c (by omega) h
    have hb := Bufio.read_buf n c hc
    rw [h] at hb
    obtain ⟨i1, i2⟩ := ih hb
    refine ⟨?_, i2⟩
    rw [← i1, h1, List.length_append]
    by_cases hle : n ≤ p.length + c'.all.length
    · have : n - p.length ≤ c'.all.length := by omega
      have ht : (p ++ c'.all).take n = p ++ c'.all.take (n - p.length) := by
        rw [List.take_append, List.take_of_length_le h2]
      have hd : (p ++ c'.all).drop n = c'.all.drop (n - p.length) := by
        rw [List.drop_append, List.drop_of_length_le h2, List.nil_append]
      simp only [hle, this, if_true, ht, hd, List.append_assoc]
    · have : ¬ n - p.length ≤ c'.all.length := by omega
      simp only [hle, this, if_false]

theorem sim_readFull (n : Nat) : Sim (readFull n) (Bufio.readFull n) := by
  intro c hc
  have := fullLoop_spec n [] c hc
  simp only [List.nil_append] at this
  exact this

theorem sim_readN (n : Int) : Sim (readN n) (Bufio.readN n) :=
  (sim_lift _).bind fun k => sim_readFull k

/-- `Peek(1)` on the byte stream. (server/server.go:80.) -/
def peek1 : Rd UInt8 := fun i =>
  match i with
  | [] => (.err .io, [])
  | b :: r => (.ok b, b :: r)

theorem sim_peek1 : Sim peek1 Bufio.peek1 := by
  intro c hc
  unfold Bufio.peek1
  cases hb : c.buf with
  | cons b r =>
    refine ⟨?_, hc⟩
    simp [peek1, Sock.all, hb]
  | nil =>
    dsimp only
    by_cases hn : c.net = []
    · simp only [hn, if_true]
      refine ⟨?_, hc⟩
      simp [peek1, Sock.all, hb, hn]
    · simp only [hn, if_false]
      have hf := c.fill_buf (by rw [hb]; decide)
      have hl : 0 < c.net.length := List.length_pos_iff.2 hn
      have hne : c.fill.buf ≠ [] := by
        intro e
        have := congrArg List.length e
        have h0 : bufSize = 4096 := rfl
        simp only [Sock.fill, Sock.piece, Sock.got, hb, List.length_append, List.length_take, List.length_nil] at this
        omega
      cases hfb : c.fill.buf with
      | nil => exact absurd hfb hne
      | cons b r =>
        refine ⟨?_, hf⟩
        have : c.all = b :: (r ++ c.fill.net) := by
          rw [← c.fill_all]; simp [Sock.all, hfb]
        simp only [this, peek1]
        rw [c.fill_all, this]

/-- Prove `Sim` of two readers of the same structure. -/
macro "simul" : tactic => `(tactic| repeat' (first
  | with_reducible exact sim_pure _ | with_reducible exact sim_fail _
  | with_reducible exact sim_lift _ | with_reducible exact sim_readSlice
  | with_reducible exact sim_readBytes | with_reducible exact sim_readFull _
  | with_reducible exact sim_readN _ | with_reducible exact sim_peek1
  | with_reducible apply sim_ite | with_reducible apply Sim.bind
  | (with_reducible intro _; try dsimp only) | split))

end Verif
