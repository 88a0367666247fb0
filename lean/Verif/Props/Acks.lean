import Verif.Lemmas.Reply
import Verif.Client.Text
import Verif.Client.Meta
/-!
C19, C20, C21: which replies make an operation succeed, and which make it return ItemNotFound
or ItemExists.  Every theorem quantifies over all byte streams `i` the server may send; `r` is
what is left for the next operation.
-/

namespace Verif
namespace Props
open Spec

theorem line_stored : Line b!"STORED\r\n" := ⟨b!"STORED\r", rfl, by decide⟩
theorem line_exists : Line b!"EXISTS\r\n" := ⟨b!"EXISTS\r", rfl, by decide⟩
theorem line_notFound : Line b!"NOT_FOUND\r\n" := ⟨b!"NOT_FOUND\r", rfl, by decide⟩
theorem line_ok : Line b!"OK\r\n" := ⟨b!"OK\r", rfl, by decide⟩
theorem line_end : Line b!"END\r\n" := ⟨b!"END\r", rfl, by decide⟩
theorem line_en : Line b!"EN\r\n" := ⟨b!"EN\r", rfl, by decide⟩
theorem line_mn : Line b!"MN\r\n" := ⟨b!"MN\r", rfl, by decide⟩

theorem reply_lit {lit : Bytes} (h : Line lit) (hl : lit.length ≤ 4096) {i r : Bytes} :
    i = lit ++ r ↔ Reply i lit r := by
  constructor
  · rintro rfl; exact ⟨rfl, h, hl⟩
  · exact fun h => h.1

/-- Shape shared by all operations answered by one line: the outcome is a function `f` of the
line, and exactly the line is consumed. -/
theorem line_table {α : Type} {rd : Rd α} {f : Bytes → Res α}
    (h : ∀ i, rd i = (readSlice >>= fun b => Rd.lift (f b)) i) (x : Res α) (hx : Proper x) (i r : Bytes) :
    rd i = (x, r) ↔ ∃ l, Reply i l r ∧ f l = x := by
  rw [h, line_iff hx]
  constructor
  · rintro ⟨l, r', hl, he⟩
    simp only [Rd.lift_apply, Prod.mk.injEq] at he
    obtain ⟨h1, rfl⟩ := he
    exact ⟨l, hl, h1⟩
  · rintro ⟨l, hl, he⟩
    exact ⟨l, r, hl, by simp [he]⟩

theorem exists_lit {lit : Bytes} (h : Line lit) (hl : lit.length ≤ 4096) {i r : Bytes} {P : Bytes → Prop}
    (hP : ∀ l, P l ↔ l = lit) : (∃ l, Reply i l r ∧ P l) ↔ i = lit ++ r := by
  constructor
  · rintro ⟨l, hl', hp⟩
    rw [(hP l).1 hp] at hl'
    exact hl'.1
  · intro e
    exact ⟨lit, (reply_lit h hl).1 e, (hP lit).2 rfl⟩

theorem exists_congr' {i r : Bytes} {P Q : Bytes → Prop} (h : ∀ l, P l ↔ Q l) :
    (∃ l, Reply i l r ∧ P l) ↔ ∃ l, Reply i l r ∧ Q l := by
  simp only [h]

theorem exists_none {i r : Bytes} {P : Bytes → Prop} (h : ∀ l, ¬ P l) :
    ¬ ∃ l, Reply i l r ∧ P l := fun ⟨l, _, hp⟩ => h l hp

/-! ### The tables of the single-line operations, as functions of the line -/

namespace Table
def textSet (b : Bytes) : Res Unit :=
  if b = Text.msgStored then .ok () else if b = Text.msgExists then .err .itemExists
  else .err (.msg (b!"memcached: failed set: " ++ b))
def add (b : Bytes) : Res Unit := if b = Text.msgStored then .ok () else .err .itemExists
def replace (b : Bytes) : Res Unit := if b = Text.msgStored then .ok () else .err .itemNotFound
def textDelete (b : Bytes) : Res Unit :=
  if b = Text.msgDeleted then .ok () else if b = Text.msgNotFound then .err .itemNotFound else .ok ()
def textTouch (b : Bytes) : Res Unit :=
  if b = Text.msgTouched then .ok () else if b = Text.msgNotFound then .err .itemNotFound else .ok ()
def arith (b : Bytes) : Res Int :=
  if b = Text.msgNotFound then .err .itemNotFound
  else (sliceTo b (b.length - 2)).bind fun d => numRes (parseInt d 64)
def flush (b : Bytes) : Res Unit :=
  if b = Text.msgOk then .ok ()
  else (sliceTo b (b.length - 2)).bind fun d => .err (.msg (b!"memcached: " ++ d))
def version (b : Bytes) : Res Bytes := .ok (trimSuffix (trimPrefix b b!"VERSION ") crlf)
def metaSet (b : Bytes) : Res Unit :=
  if hasPrefix b b!"HD" then .ok ()
  else if hasPrefix b b!"NS" then .err (.msg b!"memcached: not stored")
  else if hasPrefix b b!"EX" then .err .itemExists
  else if hasPrefix b b!"NF" then .err .itemNotFound
  else .err (.msg b!"memcached: failed set")
def metaDelete (b : Bytes) : Res Unit :=
  if hasPrefix b b!"HD" then .ok ()
  else if hasPrefix b b!"NF" then .ok ()
  else if hasPrefix b b!"EX" then .err .itemNotFound
  else .err (.msg b!"memcached: failed delete")
def metaTouch (b : Bytes) : Res Unit :=
  if hasPrefix b b!"HD" then .ok () else .err (.msg b!"memcached: failed touch")
end Table

/-- Two readers that read a line and then only look at it. -/
theorem same_line {α : Type} {f : Bytes → Rd α} {g : Bytes → Res α} (h : ∀ b r, f b r = (g b, r)) (i : Bytes) :
    (readSlice >>= f) i = (readSlice >>= fun b => Rd.lift (g b)) i := by
  have : f = fun b => Rd.lift (g b) := by funext b r; exact h b r
  rw [this]

theorem textSet_table (item : Item) (i : Bytes) :
    (Text.set item).rd i = (readSlice >>= fun b => Rd.lift (Table.textSet b)) i :=
  same_line (fun b r => by unfold Table.textSet; split <;> (try split) <;> rfl) i
theorem textAdd_table (item : Item) (i : Bytes) :
    (Text.add item).rd i = (readSlice >>= fun b => Rd.lift (Table.add b)) i :=
  same_line (fun b r => by unfold Table.add; split <;> rfl) i
theorem textReplace_table (item : Item) (i : Bytes) :
    (Text.replace item).rd i = (readSlice >>= fun b => Rd.lift (Table.replace b)) i :=
  same_line (fun b r => by unfold Table.replace; split <;> rfl) i
theorem metaAdd_table (item : Item) (i : Bytes) :
    (Meta.add item).rd i = (readSlice >>= fun b => Rd.lift (Table.add b)) i :=
  same_line (fun b r => by unfold Table.add; split <;> rfl) i
theorem metaReplace_table (item : Item) (i : Bytes) :
    (Meta.replace item).rd i = (readSlice >>= fun b => Rd.lift (Table.replace b)) i :=
  same_line (fun b r => by unfold Table.replace; split <;> rfl) i
theorem textDelete_table (k : Bytes) (i : Bytes) :
    (Text.delete k).rd i = (readSlice >>= fun b => Rd.lift (Table.textDelete b)) i :=
  same_line (fun b r => by unfold Table.textDelete; split <;> (try split) <;> rfl) i
theorem textTouch_table (k : Bytes) (e : Int) (i : Bytes) :
    (Text.touch k e).rd i = (readSlice >>= fun b => Rd.lift (Table.textTouch b)) i :=
  same_line (fun b r => by unfold Table.textTouch; split <;> (try split) <;> rfl) i
theorem arith_step (b r : Bytes) :
    (if b = Text.msgNotFound then Rd.fail .itemNotFound
      else do
        let d ← Rd.lift (sliceTo b (b.length - 2))
        Rd.lift (numRes (parseInt d 64)) : Rd Int) r = (Table.arith b, r) := by
  unfold Table.arith
  split
  · rfl
  · cases sliceTo b (b.length - 2) <;> rfl
theorem textArith_table (op k : Bytes) (d : Int) (i : Bytes) :
    (Text.incrOrDecr op k d).rd i = (readSlice >>= fun b => Rd.lift (Table.arith b)) i :=
  same_line arith_step i
theorem metaArith_table (op k : Bytes) (d : Int) (i : Bytes) :
    (Meta.incrOrDecr op k d).rd i = (readSlice >>= fun b => Rd.lift (Table.arith b)) i :=
  same_line arith_step i
theorem flush_step (b r : Bytes) :
    (if b = Text.msgOk then pure ()
      else do
        let d ← Rd.lift (sliceTo b (b.length - 2))
        Rd.fail (.msg (b!"memcached: " ++ d)) : Rd Unit) r = (Table.flush b, r) := by
  unfold Table.flush
  split
  · rfl
  · cases sliceTo b (b.length - 2) <;> rfl
theorem textFlush_table (i : Bytes) :
    Text.flush.rd i = (readSlice >>= fun b => Rd.lift (Table.flush b)) i := same_line flush_step i
theorem metaFlush_table (i : Bytes) :
    Meta.flush.rd i = (readSlice >>= fun b => Rd.lift (Table.flush b)) i := same_line flush_step i
theorem textVersion_table (i : Bytes) :
    Text.version.rd i = (readSlice >>= fun b => Rd.lift (Table.version b)) i := rfl
theorem metaVersion_table (i : Bytes) :
    Meta.version.rd i = (readSlice >>= fun b => Rd.lift (Table.version b)) i := rfl
theorem metaSet_table (item : Item) (i : Bytes) :
    (Meta.set item).rd i = (readSlice >>= fun b => Rd.lift (Table.metaSet b)) i :=
  same_line (fun b r => by unfold Table.metaSet; split <;> (try split) <;> (try split) <;> (try split) <;> rfl) i
theorem metaDelete_table (k : Bytes) (i : Bytes) :
    (Meta.delete k).rd i = (readSlice >>= fun b => Rd.lift (Table.metaDelete b)) i :=
  same_line (fun b r => by unfold Table.metaDelete; split <;> (try split) <;> (try split) <;> rfl) i
theorem metaTouch_table (k : Bytes) (e : Int) (i : Bytes) :
    (Meta.touch k e).rd i = (readSlice >>= fun b => Rd.lift (Table.metaTouch b)) i :=
  same_line (fun b r => by unfold Table.metaTouch; split <;> rfl) i

/-! ### C19: Set -/

/-- C19, text: nil exactly for `STORED`. -/
theorem C19_text (item : Item) (i r : Bytes) :
    (Text.set item).rd i = (.ok (), r) ↔ i = b!"STORED\r\n" ++ r := by
  rw [line_table (textSet_table item) _ (by simp)]
  refine exists_lit line_stored (by decide) (fun l => ?_)
  unfold Table.textSet
  split
  · rename_i h; simp [h]; rfl
  · rename_i h
    split <;> simp <;> exact h

/-- C19, meta: nil exactly for a line starting with `HD`. -/
theorem C19_meta (item : Item) (i r : Bytes) :
    (Meta.set item).rd i = (.ok (), r) ↔ ∃ l, Reply i l r ∧ b!"HD" <+: l := by
  rw [line_table (metaSet_table item) _ (by simp)]
  refine exists_congr' fun l => ?_
  rw [← List.isPrefixOf_iff_prefix]
  unfold Table.metaSet hasPrefix
  split
  · rename_i h; simp [h]
  · rename_i h
    split <;> (try split) <;> (try split) <;> simp <;> simpa using h

/-- The binary reply is the header of a successful `op`: magic 0x81, that opcode, status 0.  Of the
reply to `Set`, `Add`, `Touch` nothing else is read. -/
def BinAck (op : UInt8) (h : Bytes) : Prop := BinHead h ∧ opcodeOf h = op ∧ statusOf h = 0

/-- C19, binary: nil exactly for a header with opcode Set and status 0. -/
theorem C19_binary (hd : Bin.ReqHdr) (item : Item) (i r : Bytes) :
    (Bin.set hd item).rd i = (.ok (), r) ↔ ∃ h, i = h ++ r ∧ BinAck 1 h := by
  show (Bin.readHdr >>= _) i = _ ↔ _
  rw [hdr_iff (by simp) (by simp)]
  constructor
  · rintro ⟨h, r', rfl, hb, he⟩
    simp only [Rd.ite_apply', Rd.fail_apply, Rd.pure_apply] at he
    split at he
    · simp at he
    · rename_i h1
      split at he
      · split at he <;> simp at he
      · rename_i h2
        simp only [Prod.mk.injEq, true_and] at he
        subst he
        exact ⟨h, rfl, hb, Decidable.not_not.1 h1, Decidable.not_not.1 h2⟩
  · rintro ⟨h, rfl, hb, h1, h2⟩
    refine ⟨h, r, rfl, hb, ?_⟩
    have h1' : (Bin.ResHdr.ofBytes h).opcode = Bin.opSet := h1
    have h2' : (Bin.ResHdr.ofBytes h).status = 0 := h2
    simp [h1', h2']

/-- Set never panics while reading the reply, so every other stream gives an error. -/
theorem C19_text_else (item : Item) (i : Bytes) (h : ¬ b!"STORED\r\n" <+: i) :
    ∃ e r, (Text.set item).rd i = (.err e, r) := by
  cases hq : (Text.set item).rd i with
  | mk x r =>
    cases x with
    | ok a => exact absurd ⟨r, ((C19_text item i r).1 hq).symm⟩ h
    | err e => exact ⟨e, r, rfl⟩
    | panic =>
      obtain ⟨l, _, hl⟩ := (line_table (textSet_table item) _ (by simp) i r).1 hq
      unfold Table.textSet at hl
      split at hl <;> (try split at hl) <;> simp at hl

theorem C19_meta_else (item : Item) (i : Bytes) (h : ¬ b!"HD" <+: i) :
    ∃ e r, (Meta.set item).rd i = (.err e, r) := by
  cases hq : (Meta.set item).rd i with
  | mk x r =>
    cases x with
    | ok a =>
      obtain ⟨l, ⟨rfl, _⟩, hp⟩ := (C19_meta item i r).1 hq
      exact absurd (hp.trans (List.prefix_append l r)) h
    | err e => exact ⟨e, r, rfl⟩
    | panic =>
      obtain ⟨l, _, hl⟩ := (line_table (metaSet_table item) _ (by simp) i r).1 hq
      unfold Table.metaSet at hl
      split at hl <;> (try split at hl) <;> (try split at hl) <;> (try split at hl) <;> simp at hl

theorem C19_binary_else (hd : Bin.ReqHdr) (item : Item) (i : Bytes)
    (h : ¬ ∃ hdr r, i = hdr ++ r ∧ BinAck 1 hdr) :
    ∃ e r, (Bin.set hd item).rd i = (.err e, r) := by
  cases hq : (Bin.set hd item).rd i with
  | mk x r =>
    cases x with
    | ok a =>
      obtain ⟨hdr, h1, h2⟩ := (C19_binary hd item i r).1 hq
      exact absurd ⟨hdr, r, h1, h2⟩ h
    | err e => exact ⟨e, r, rfl⟩
    | panic =>
      obtain ⟨hdr, r', _, _, he⟩ := (hdr_iff (by simp) (by simp)).1 hq
      simp only [Rd.ite_apply', Rd.fail_apply, Rd.pure_apply] at he
      split at he
      · simp at he
      · split at he
        · split at he <;> simp at he
        · simp at he

/-- Non-vacuity: replies of each kind. -/
example : (Text.set {}).rd b!"STORED\r\nEND\r\n" = (.ok (), b!"END\r\n") := (C19_text {} _ _).2 rfl
example : (Meta.set {}).rd b!"HD\r\n" = (.ok (), []) := rfl
example : BinAck 1 ([0x81, 1] ++ List.replicate 22 0) := by
  refine ⟨⟨rfl, rfl⟩, rfl, rfl⟩
example : (Text.set {}).rd b!"SERVER_ERROR\r\n" = (.err (.msg b!"memcached: failed set: SERVER_ERROR\r\n"), []) := rfl

/-! ### C20: the other operations -/

/-- C20, Add and Replace of the text and meta protocols: nil exactly for `STORED`. -/
theorem C20_add_text (item : Item) (i r : Bytes) :
    (Text.add item).rd i = (.ok (), r) ↔ i = b!"STORED\r\n" ++ r := by
  rw [line_table (textAdd_table item) _ (by simp)]
  refine exists_lit line_stored (by decide) (fun l => ?_)
  unfold Table.add
  split <;> simp <;> assumption
theorem C20_add_meta (item : Item) (i r : Bytes) :
    (Meta.add item).rd i = (.ok (), r) ↔ i = b!"STORED\r\n" ++ r := by
  rw [line_table (metaAdd_table item) _ (by simp)]
  refine exists_lit line_stored (by decide) (fun l => ?_)
  unfold Table.add
  split <;> simp <;> assumption
theorem C20_replace_text (item : Item) (i r : Bytes) :
    (Text.replace item).rd i = (.ok (), r) ↔ i = b!"STORED\r\n" ++ r := by
  rw [line_table (textReplace_table item) _ (by simp)]
  refine exists_lit line_stored (by decide) (fun l => ?_)
  unfold Table.replace
  split <;> simp <;> assumption
theorem C20_replace_meta (item : Item) (i r : Bytes) :
    (Meta.replace item).rd i = (.ok (), r) ↔ i = b!"STORED\r\n" ++ r := by
  rw [line_table (metaReplace_table item) _ (by simp)]
  refine exists_lit line_stored (by decide) (fun l => ?_)
  unfold Table.replace
  split <;> simp <;> assumption

/-- C20, Flush of the text and meta protocols: nil exactly for `OK`. -/
theorem C20_flush_text (i r : Bytes) : Text.flush.rd i = (.ok (), r) ↔ i = b!"OK\r\n" ++ r := by
  rw [line_table textFlush_table _ (by simp)]
  refine exists_lit line_ok (by decide) (fun l => ?_)
  unfold Table.flush
  split
  · rename_i h; simp [h]; rfl
  · rename_i h
    cases sliceTo l (l.length - 2) <;> simp [Res.bind] <;> exact h
theorem C20_flush_meta (i r : Bytes) : Meta.flush.rd i = (.ok (), r) ↔ i = b!"OK\r\n" ++ r := by
  rw [← C20_flush_text]
  exact Iff.rfl

/-- The table of Increment/Decrement, value case. -/
theorem arith_ok (l : Bytes) (n : Int) (hl : Line l) : Table.arith l = .ok n
    ↔ ∃ d c, l = d ++ [c, 10] ∧ parseInt d 64 = some n := by
  obtain ⟨p, rfl, hp⟩ := hl
  unfold Table.arith
  constructor
  · intro h
    split at h
    · simp at h
    · rcases List.eq_nil_or_concat p with rfl | ⟨d, c, rfl⟩
      · simp [sliceTo] at h
      · refine ⟨d, c, by simp, ?_⟩
        have e : sliceTo (d ++ [c] ++ [10]) (((d ++ [c] ++ [10]).length : Int) - 2) = .ok d := by
          have : ((d ++ [c] ++ [10]).length : Int) - 2 = d.length := by simp; try omega
          rw [this]
          simp [sliceTo]; omega
        rw [List.concat_eq_append, e] at h
        simp only [Res.bind] at h
        cases hq : parseInt d 64 with
        | none => simp [hq, numRes] at h
        | some m => simp [hq, numRes] at h; rw [h]
  · rintro ⟨d, c, e, hn⟩
    have hne : ¬ p ++ [10] = Text.msgNotFound := by
      intro h
      rw [e] at h
      have : d = b!"NOT_FOUND" := by
        have h' : d ++ [c, 10] = b!"NOT_FOUND" ++ [13, 10] := h
        exact (List.append_inj' h' rfl).1
      rw [this] at hn
      revert hn; simp [parseInt, parseUint, decVal, isDigit]
    rw [if_neg hne, e]
    have : ((d ++ [c, 10]).length : Int) - 2 = d.length := by simp
    rw [this]
    have h2 : sliceTo (d ++ [c, 10]) (d.length : Int) = .ok d := by simp [sliceTo]; omega
    rw [h2]
    simp [Res.bind, hn, numRes]

/-- C20, Increment and Decrement of the text and meta protocols return `n` exactly for a line made of
a number and two line-end bytes. -/
theorem C20_arith_text (op k : Bytes) (delta : Int) (i r : Bytes) (n : Int) :
    (Text.incrOrDecr op k delta).rd i = (.ok n, r)
      ↔ ∃ d c, Reply i (d ++ [c, 10]) r ∧ parseInt d 64 = some n := by
  rw [line_table (textArith_table op k delta) _ (by simp)]
  constructor
  · rintro ⟨l, hl, h⟩
    obtain ⟨d, c, rfl, hn⟩ := (arith_ok l n hl.2.1).1 h
    exact ⟨d, c, hl, hn⟩
  · rintro ⟨d, c, hl, hn⟩
    exact ⟨_, hl, (arith_ok _ n hl.2.1).2 ⟨d, c, rfl, hn⟩⟩
theorem C20_arith_meta (op k : Bytes) (delta : Int) (i r : Bytes) (n : Int) :
    (Meta.incrOrDecr op k delta).rd i = (.ok n, r)
      ↔ ∃ d c, Reply i (d ++ [c, 10]) r ∧ parseInt d 64 = some n :=
  C20_arith_text op k delta i r n

/-- C20, meta Delete and Touch: nil exactly for `HD` (Delete also for `NF`: the item is not there). -/
theorem C20_delete_meta (k i r : Bytes) : (Meta.delete k).rd i = (.ok (), r)
    ↔ ∃ l, Reply i l r ∧ (b!"HD" <+: l ∨ b!"NF" <+: l) := by
  rw [line_table (metaDelete_table k) _ (by simp)]
  refine exists_congr' fun l => ?_
  rw [← List.isPrefixOf_iff_prefix, ← List.isPrefixOf_iff_prefix]
  unfold Table.metaDelete hasPrefix
  split
  · rename_i h; simp [h]
  · rename_i h
    split
    · rename_i h'; simp [h']
    · rename_i h'
      split <;> simp <;> exact ⟨by simpa using h, by simpa using h'⟩
theorem C20_touch_meta (k : Bytes) (e : Int) (i r : Bytes) : (Meta.touch k e).rd i = (.ok (), r)
    ↔ ∃ l, Reply i l r ∧ b!"HD" <+: l := by
  rw [line_table (metaTouch_table k e) _ (by simp)]
  refine exists_congr' fun l => ?_
  rw [← List.isPrefixOf_iff_prefix]
  unfold Table.metaTouch hasPrefix
  split
  · rename_i h; simp [h]
  · rename_i h; simp; simpa using h

/-- C20 fails for text Delete: it returns nil for every line except `NOT_FOUND` ... -/
theorem C20_delete_text (k i r : Bytes) : (Text.delete k).rd i = (.ok (), r)
    ↔ ∃ l, Reply i l r ∧ l ≠ b!"NOT_FOUND\r\n" := by
  rw [line_table (textDelete_table k) _ (by simp)]
  refine exists_congr' fun l => ?_
  unfold Table.textDelete
  split
  · rename_i h; subst h; simp; decide
  · split
    · rename_i h; simp; exact h
    · rename_i h; simp; exact h
/-- ... and so does text Touch ... -/
theorem C20_touch_text (k : Bytes) (e : Int) (i r : Bytes) : (Text.touch k e).rd i = (.ok (), r)
    ↔ ∃ l, Reply i l r ∧ l ≠ b!"NOT_FOUND\r\n" := by
  rw [line_table (textTouch_table k e) _ (by simp)]
  refine exists_congr' fun l => ?_
  unfold Table.textTouch
  split
  · rename_i h; subst h; simp; decide
  · split
    · rename_i h; simp; exact h
    · rename_i h; simp; exact h
/-- ... for instance when the server reports an error. -/
theorem C20_false_success (k : Bytes) (e : Int) (msg r : Bytes) (h : (10 : UInt8) ∉ msg) (hl : msg.length ≤ 4000) :
    (Text.delete k).rd (b!"SERVER_ERROR " ++ msg ++ b!"\r\n" ++ r) = (.ok (), r)
    ∧ (Text.touch k e).rd (b!"SERVER_ERROR " ++ msg ++ b!"\r\n" ++ r) = (.ok (), r) := by
  have hr : Reply (b!"SERVER_ERROR " ++ msg ++ b!"\r\n" ++ r) (b!"SERVER_ERROR " ++ msg ++ b!"\r\n") r := by
    refine ⟨rfl, ⟨b!"SERVER_ERROR " ++ msg ++ b!"\r", by simp, ?_⟩, by simp; omega⟩
    simp [h]
  have hne : b!"SERVER_ERROR " ++ msg ++ b!"\r\n" ≠ b!"NOT_FOUND\r\n" := by simp
  exact ⟨(C20_delete_text k _ r).2 ⟨_, hr, hne⟩, (C20_touch_text k e _ r).2 ⟨_, hr, hne⟩⟩

/-- C20, binary Add. -/
theorem C20_add_binary (hd : Bin.ReqHdr) (item : Item) (i r : Bytes) :
    (Bin.add hd item).rd i = (.ok (), r) ↔ ∃ h, i = h ++ r ∧ BinAck 2 h := by
  show (Bin.readHdr >>= _) i = _ ↔ _
  rw [hdr_iff (by simp) (by simp)]
  constructor
  · rintro ⟨h, r', rfl, hb, he⟩
    simp only [Rd.ite_apply', Rd.fail_apply, Rd.pure_apply] at he
    split at he
    · simp at he
    · rename_i h1
      split at he
      · split at he <;> simp at he
      · rename_i h2
        simp only [Prod.mk.injEq, true_and] at he
        subst he
        exact ⟨h, rfl, hb, Decidable.not_not.1 h1, Decidable.not_not.1 h2⟩
  · rintro ⟨h, rfl, hb, h1, h2⟩
    refine ⟨h, r, rfl, hb, ?_⟩
    have h1' : (Bin.ResHdr.ofBytes h).opcode = Bin.opAdd := h1
    have h2' : (Bin.ResHdr.ofBytes h).status = 0 := h2
    simp [h1', h2']

/-- Operations that read the whole reply (header, then body) before they look at the status. -/
theorem body_iff {α : Type} {op : UInt8} {f : Bin.ResHdr → Bytes → Rd α} {i r : Bytes} {x : Res α}
    (hx : Proper x) (hx' : x ≠ .err errInvalidResponse) :
    (Bin.readHdr >>= fun q => if q.opcode ≠ op then Rd.fail errInvalidResponse
        else readFull q.totalBodyLength >>= f q) i = (x, r)
      ↔ ∃ h b r', BinReply i h b r' ∧ opcodeOf h = op ∧ f (Bin.ResHdr.ofBytes h) b r' = (x, r) := by
  rw [hdr_iff hx hx']
  constructor
  · rintro ⟨h, r', rfl, hb, he⟩
    simp only [Rd.ite_apply', Rd.fail_apply] at he
    split at he
    · simp only [Prod.mk.injEq] at he
      exact absurd he.1.symm hx'
    · rename_i h1
      obtain ⟨b, r2, rfl, hl, he⟩ := (full_iff hx).1 he
      exact ⟨h, b, r2, ⟨by simp, hb, hl⟩, Decidable.not_not.1 h1, he⟩
  · rintro ⟨h, b, r', ⟨rfl, hb, hl⟩, h1, he⟩
    refine ⟨h, b ++ r', by simp, hb, ?_⟩
    have h1' : (Bin.ResHdr.ofBytes h).opcode = op := h1
    rw [Rd.ite_apply', if_neg (by simpa using h1')]
    exact (full_iff hx).2 ⟨b, r', rfl, hl, he⟩

/-- C20, binary Replace: the body is read as well. -/
theorem C20_replace_binary (hd : Bin.ReqHdr) (item : Item) (i r : Bytes) :
    (Bin.replace hd item).rd i = (.ok (), r) ↔ ∃ h b, BinReply i h b r ∧ opcodeOf h = 3 ∧ statusOf h = 0 := by
  refine (body_iff (op := Bin.opReplace) (by simp) (by simp)).trans ?_
  constructor
  · rintro ⟨h, b, r', hr, ho, he⟩
    simp only [Rd.ite_apply', Rd.fail_apply, Rd.pure_apply] at he
    split at he
    · split at he <;> simp at he
    · rename_i h2
      simp only [Prod.mk.injEq, true_and] at he
      subst he
      exact ⟨h, b, hr, ho, Decidable.not_not.1 h2⟩
  · rintro ⟨h, b, hr, ho, h2⟩
    refine ⟨h, b, r, hr, ho, ?_⟩
    have h2' : (Bin.ResHdr.ofBytes h).status = 0 := h2
    simp [h2']
theorem C20_delete_binary (hd : Bin.ReqHdr) (k : Bytes) (i r : Bytes) :
    (Bin.delete hd k).rd i = (.ok (), r) ↔ ∃ h b, BinReply i h b r ∧ opcodeOf h = 4 ∧ statusOf h = 0 := by
  refine (body_iff (op := Bin.opDelete) (by simp) (by simp)).trans ?_
  constructor
  · rintro ⟨h, b, r', hr, ho, he⟩
    simp only [Rd.ite_apply', Rd.fail_apply, Rd.pure_apply] at he
    split at he
    · split at he <;> simp at he
    · rename_i h2
      simp only [Prod.mk.injEq, true_and] at he
      subst he
      exact ⟨h, b, hr, ho, Decidable.not_not.1 h2⟩
  · rintro ⟨h, b, hr, ho, h2⟩
    refine ⟨h, b, r, hr, ho, ?_⟩
    have h2' : (Bin.ResHdr.ofBytes h).status = 0 := h2
    simp [h2']

/-- C20, binary Increment and Decrement: header with that opcode and status 0, and a body whose first
eight bytes are the result. -/
theorem C20_arith_binary (hd : Bin.ReqHdr) (op : UInt8) (k : Bytes) (d e : Int) (i r : Bytes) (n : Int) :
    (Bin.incrOrDecr hd op k d e).rd i = (.ok n, r)
      ↔ ∃ h b, BinReply i h b r ∧ opcodeOf h = op ∧ statusOf h = 0 ∧ 8 ≤ b.length
          ∧ n = toSigned 64 (getBE (b.take 8)) := by
  refine (body_iff (op := op) (by simp) (by simp)).trans ?_
  constructor
  · rintro ⟨h, b, r', hr, ho, he⟩
    simp only [Rd.ite_apply'] at he
    split at he
    · cases hlk : Bin.binaryStatus.lookup (Bin.ResHdr.ofBytes h).status <;> rw [hlk] at he <;> simp at he
    · rename_i h2
      by_cases hl : 8 ≤ b.length
      · have hq : beUint 8 b = .ok (getBE (b.take 8)) := by simp [beUint, hl]
        rw [hq] at he
        simp only [Rd.bind_apply, Rd.lift_apply, Rd.pure_apply, Prod.mk.injEq, Res.ok.injEq] at he
        obtain ⟨rfl, rfl⟩ := he
        exact ⟨h, b, hr, ho, Decidable.not_not.1 h2, hl, rfl⟩
      · have hq : beUint 8 b = .panic := by simp [beUint, hl]
        rw [hq] at he
        simp [Rd.bind_apply] at he
  · rintro ⟨h, b, hr, ho, h2, hl, rfl⟩
    refine ⟨h, b, r, hr, ho, ?_⟩
    have h2' : (Bin.ResHdr.ofBytes h).status = 0 := h2
    have hq : beUint 8 b = .ok (getBE (b.take 8)) := by simp [beUint, hl]
    simp only [h2', hq, ne_eq, not_true_eq_false, if_false]
    rfl

/-- C20, binary Touch: status 0; the opcode is not looked at. -/
theorem C20_touch_binary (hd : Bin.ReqHdr) (k : Bytes) (e : Int) (i r : Bytes) :
    (Bin.touch hd k e).rd i = (.ok (), r) ↔ ∃ h, i = h ++ r ∧ BinHead h ∧ statusOf h = 0 := by
  show (Bin.readHdr >>= _) i = _ ↔ _
  rw [hdr_iff (by simp) (by simp)]
  constructor
  · rintro ⟨h, r', rfl, hb, he⟩
    simp only [Rd.ite_apply', Rd.fail_apply, Rd.pure_apply] at he
    split at he
    · simp at he
    · rename_i h2
      simp only [Prod.mk.injEq, true_and] at he
      subst he
      exact ⟨h, rfl, hb, Decidable.not_not.1 h2⟩
  · rintro ⟨h, rfl, hb, h2⟩
    refine ⟨h, r, rfl, hb, ?_⟩
    have h2' : (Bin.ResHdr.ofBytes h).status = 0 := h2
    simp [h2']

/-- C20 fails for binary Flush: nil for every header with its opcode, whatever the status. -/
theorem C20_flush_binary (hd : Bin.ReqHdr) (i r : Bytes) :
    (Bin.flush hd).rd i = (.ok (), r) ↔ ∃ h, i = h ++ r ∧ BinHead h ∧ opcodeOf h = 8 := by
  show (Bin.readHdr >>= _) i = _ ↔ _
  rw [hdr_iff (by simp) (by simp)]
  constructor
  · rintro ⟨h, r', rfl, hb, he⟩
    simp only [Rd.ite_apply', Rd.fail_apply, Rd.pure_apply] at he
    split at he
    · simp at he
    · rename_i h2
      simp only [Prod.mk.injEq, true_and] at he
      subst he
      exact ⟨h, rfl, hb, Decidable.not_not.1 h2⟩
  · rintro ⟨h, rfl, hb, h2⟩
    refine ⟨h, r, rfl, hb, ?_⟩
    have h2' : (Bin.ResHdr.ofBytes h).opcode = Bin.opFlush := h2
    simp [h2']

/-- Non-vacuity: a refused flush (status 0x81, unknown command) that is taken for a success. -/
example : (Bin.flush {}).rd ([0x81, 8, 0, 0, 0, 0, 0, 0x81] ++ List.replicate 16 0) = (.ok (), []) :=
  (C20_flush_binary {} _ _).2 ⟨_, (List.append_nil _).symm, ⟨rfl, rfl⟩, rfl⟩
example : (Text.incrOrDecr b!"incr" b!"k" 1).rd b!"42\r\n" = (.ok 42, []) :=
  (C20_arith_text _ _ _ _ _ 42).2 ⟨b!"42", 13, ⟨rfl, ⟨b!"42\r", rfl, by decide⟩, by decide⟩, by decide⟩

end Props
end Verif
