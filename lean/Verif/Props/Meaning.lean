import Verif.Spec.Meaning
import Verif.Props.AcceptsText
import Verif.Props.AcceptsBinary
import Verif.Lemmas.Reply
import Verif.Lemmas.McText
/-!
C82: what each reply means to each operation.  Together with C70 (the values of Get and GetMulti) and C51 (panics) this
fixes the result of every operation for every reply.
-/

namespace Verif
namespace Props
open Spec

theorem means_line {α : Type} {f : Bytes → Rd α} {i l r : Bytes} (h : Reply i l r) : (readSlice >>= f) i = f l r := by
  rw [Rd.bind_of_ok (readSlice_iff.2 h)]

theorem prefix_iff {p l : Bytes} : hasPrefix l p = true ↔ p <+: l := List.isPrefixOf_iff_prefix

theorem ends_two {l : Bytes} (hl : Line l) : (∃ a, l = [a]) ∨ ∃ d a b, l = d ++ [a, b] := by
  obtain ⟨p, rfl, _⟩ := hl
  rcases List.eq_nil_or_concat p with rfl | ⟨d, a, rfl⟩
  · exact .inl ⟨10, rfl⟩
  · exact .inr ⟨d, a, 10, by simp⟩

theorem slice_two (d : Bytes) (a b : UInt8) : sliceTo (d ++ [a, b]) (((d ++ [a, b]).length : Int) - 2) = .ok d := by
  unfold sliceTo
  have : ((d ++ [a, b]).length : Int) - 2 = d.length := by simp
  rw [this, if_pos ⟨by omega, by rw [List.length_append]; omega⟩]
  simp

theorem slice_one (a : UInt8) : sliceTo [a] (([a].length : Int) - 2) = .panic := rfl

/-- **C82**: a line in reply to Set, Add, Replace, Delete or Touch of a text client. -/
theorem C82_text_word (name : Bytes) (o : Spec.Op) {i l r : Bytes} (hr : Reply i l r) {x : Res Out}
    (hx : wordMeans (.text name) o l = some x) : (Mc.textCall name o).rd i = (x, r) := by
  cases o with
  | set it =>
    cases hx
    simp only [Mc.textCall, Call.map, Text.set, means_line hr]
    by_cases hS : l = b!"STORED\r\n"
    · subst hS; rfl
    · by_cases hE : l = b!"EXISTS\r\n"
      · subst hE; rfl
      · rw [if_neg (by exact hS), if_neg (by exact hE), if_neg (by exact hS), if_neg (by exact hE)]; rfl
  | add it =>
    cases hx
    simp only [Mc.textCall, Call.map, Text.add, means_line hr]
    by_cases hS : l = b!"STORED\r\n"
    · subst hS; rfl
    · rw [if_neg (by exact hS), if_neg (by exact hS)]; rfl
  | replace it =>
    cases hx
    simp only [Mc.textCall, Call.map, Text.replace, means_line hr]
    by_cases hS : l = b!"STORED\r\n"
    · subst hS; rfl
    · rw [if_neg (by exact hS), if_neg (by exact hS)]; rfl
  | delete k =>
    cases hx
    simp only [Mc.textCall, Call.map, Text.delete, means_line hr]
    by_cases hD : l = b!"DELETED\r\n"
    · subst hD; rfl
    · by_cases hN : l = b!"NOT_FOUND\r\n"
      · subst hN; rfl
      · rw [if_neg (by exact hD), if_neg (by exact hN), if_neg (by exact hN)]; rfl
  | touch k e =>
    cases hx
    simp only [Mc.textCall, Call.map, Text.touch, means_line hr]
    by_cases hT : l = b!"TOUCHED\r\n"
    · subst hT; rfl
    · by_cases hN : l = b!"NOT_FOUND\r\n"
      · subst hN; rfl
      · rw [if_neg (by exact hT), if_neg (by exact hN), if_neg (by exact hN)]; rfl
  | get k => cases hx
  | getMulti ks => cases hx
  | increment k d e => cases hx
  | decrement k d e => cases hx
  | flush => cases hx

/-- **C82**: a line in reply to Set, Add, Replace, Delete or Touch of a meta client. -/
theorem C82_meta_word (o : Spec.Op) {i l r : Bytes} (hr : Reply i l r) {x : Res Out}
    (hx : wordMeans .metap o l = some x) : (Mc.metaCall o).rd i = (x, r) := by
  cases o with
  | set it =>
    cases hx
    simp only [Mc.metaCall, Call.map, Meta.set, means_line hr]
    by_cases hHD : b!"HD" <+: l
    · rw [if_pos (prefix_iff.2 hHD), if_pos hHD]; rfl
    · by_cases hNS : b!"NS" <+: l
      · rw [if_neg (mt prefix_iff.1 hHD), if_pos (prefix_iff.2 hNS), if_neg hHD, if_pos hNS]; rfl
      · by_cases hEX : b!"EX" <+: l
        · rw [if_neg (mt prefix_iff.1 hHD), if_neg (mt prefix_iff.1 hNS), if_pos (prefix_iff.2 hEX), if_neg hHD, if_neg hNS, if_pos hEX]; rfl
        · by_cases hNF : b!"NF" <+: l
          · rw [if_neg (mt prefix_iff.1 hHD), if_neg (mt prefix_iff.1 hNS), if_neg (mt prefix_iff.1 hEX), if_pos (prefix_iff.2 hNF), if_neg hHD, if_neg hNS, if_neg hEX, if_pos hNF]; rfl
          · rw [if_neg (mt prefix_iff.1 hHD), if_neg (mt prefix_iff.1 hNS), if_neg (mt prefix_iff.1 hEX), if_neg (mt prefix_iff.1 hNF), if_neg hHD, if_neg hNS, if_neg hEX, if_neg hNF]; rfl
  | add it =>
    cases hx
    simp only [Mc.metaCall, Call.map, Meta.add, means_line hr]
    by_cases hS : l = b!"STORED\r\n"
    · subst hS; rfl
    · rw [if_neg (by exact hS), if_neg (by exact hS)]; rfl
  | replace it =>
    cases hx
    simp only [Mc.metaCall, Call.map, Meta.replace, means_line hr]
    by_cases hS : l = b!"STORED\r\n"
    · subst hS; rfl
    · rw [if_neg (by exact hS), if_neg (by exact hS)]; rfl
  | delete k =>
    cases hx
    simp only [Mc.metaCall, Call.map, Meta.delete, means_line hr]
    by_cases h1 : b!"HD" <+: l
    · rw [if_pos (prefix_iff.2 h1), if_pos (Or.inl h1)]; rfl
    · by_cases h2 : b!"NF" <+: l
      · rw [if_neg (mt prefix_iff.1 h1), if_pos (prefix_iff.2 h2), if_pos (Or.inr h2)]; rfl
      · have h12 : ¬ (b!"HD" <+: l ∨ b!"NF" <+: l) := fun h => h.elim h1 h2
        by_cases h3 : b!"EX" <+: l
        · rw [if_neg (mt prefix_iff.1 h1), if_neg (mt prefix_iff.1 h2), if_pos (prefix_iff.2 h3), if_neg h12, if_pos h3]; rfl
        · rw [if_neg (mt prefix_iff.1 h1), if_neg (mt prefix_iff.1 h2), if_neg (mt prefix_iff.1 h3), if_neg h12, if_neg h3]; rfl
  | touch k e =>
    cases hx
    simp only [Mc.metaCall, Call.map, Meta.touch, means_line hr]
    by_cases hHD : b!"HD" <+: l
    · rw [if_pos (prefix_iff.2 hHD), if_pos hHD]; rfl
    · rw [if_neg (mt prefix_iff.1 hHD), if_neg hHD]; rfl
  | get k => cases hx
  | getMulti ks => cases hx
  | increment k d e => cases hx
  | decrement k d e => cases hx
  | flush => cases hx

/-- Reading a number line, as both kinds of clients do. -/
theorem number_means {i l r : Bytes} (hr : Reply i l r) (x : Res Out) (r' : Bytes) (c : Call Int)
    (hc : c.rd = readSlice >>= fun b => if b = b!"NOT_FOUND\r\n" then Rd.fail .itemNotFound
      else Rd.lift (sliceTo b (b.length - 2)) >>= fun d => Rd.lift (numRes (parseInt d 64))) :
    (c.map Out.num).rd i = (x, r') ↔ r' = r ∧ NumberMeans l x := by
  have key : ∃ y, (c.map Out.num).rd i = (y, r) ∧ ∀ x, NumberMeans l x ↔ x = y := by
    simp only [Call.map, hc, means_line hr]
    by_cases h1 : l = b!"NOT_FOUND\r\n"
    · refine ⟨.err .itemNotFound, by simp only [if_pos h1]; rfl, fun x => ⟨fun h => ?_, ?_⟩⟩
      · generalize hm : l = l' at h
        cases h with
        | missing => rfl
        | @number d a b n hn =>
          exfalso
          have hd : d = b!"NOT_FOUND" ∧ [a, b] = b!"\r\n" := by
            rw [hm] at h1
            exact List.append_inj (t₁ := [a, b]) (s₂ := b!"NOT_FOUND") (t₂ := b!"\r\n") h1 (by
              have := congrArg List.length h1; simp at this; simpa using this)
          rw [hd.1] at hn
          have : parseInt b!"NOT_FOUND" 64 = some n := (parseInt_iff (by decide)).2 hn
          have h0 : parseInt b!"NOT_FOUND" 64 = none := by decide
          rw [h0] at this
          cases this
        | other h2 => exact absurd (hm ▸ h1) h2
        | short => rw [h1] at hm; cases hm
      · rintro rfl
        rw [h1]; exact .missing
    · rcases ends_two hr.2.1 with ⟨a, rfl⟩ | ⟨d, a, b, rfl⟩
      · refine ⟨.panic, by simp only [if_neg h1]; rfl, fun x => ⟨fun h => ?_, ?_⟩⟩
        · generalize hm : [a] = l' at h
          cases h with
          | missing => cases hm
          | @number d a' b n hn => exact absurd (congrArg List.length hm) (by simp)
          | @other d a' b h2 => exact absurd (congrArg List.length hm) (by simp)
          | short => rfl
        · rintro rfl; exact .short
      · cases hp : parseInt d 64 with
        | none =>
          have hno : ∀ n, ¬ Num 64 d n := fun n hn => by
            rw [(parseInt_iff (by decide)).2 hn] at hp; cases hp
          refine ⟨.err .num, ?_, fun x => ⟨fun h => ?_, ?_⟩⟩
          · simp only [if_neg h1, slice_two]
            show ((Rd.lift (numRes (parseInt d 64)) : Rd Int) r |>.1.map Out.num, _) = _
            rw [hp]; rfl
          · generalize hm : d ++ [a, b] = l' at h
            cases h with
            | missing => exact absurd hm h1
            | @number d' a' b' n hn =>
              have := List.append_inj_left' hm rfl
              subst this
              exact absurd hn (hno n)
            | other _ => rfl
            | short => exact absurd (congrArg List.length hm) (by simp)
          · rintro rfl; exact .other h1 hno
        | some n =>
          have hn := (parseInt_iff (by decide)).1 hp
          refine ⟨.ok (.num n), ?_, fun x => ⟨fun h => ?_, ?_⟩⟩
          · simp only [if_neg h1, slice_two]
            show ((Rd.lift (numRes (parseInt d 64)) : Rd Int) r |>.1.map Out.num, _) = _
            rw [hp]; rfl
          · generalize hm : d ++ [a, b] = l' at h
            cases h with
            | missing => exact absurd hm h1
            | @number d' a' b' n' hn' =>
              have := List.append_inj_left' hm rfl
              subst this
              rw [(parseInt_iff (by decide)).2 hn'] at hp
              cases hp; rfl
            | @other d' a' b' _ hno =>
              have := List.append_inj_left' hm rfl
              subst this
              exact absurd hn (hno n)
            | short => exact absurd (congrArg List.length hm) (by simp)
          · rintro rfl; exact .number hn
  obtain ⟨y, h1, h2⟩ := key
  rw [h1, h2]
  constructor
  · intro h; cases h; exact ⟨rfl, rfl⟩
  · rintro ⟨rfl, rfl⟩; rfl

/-- **C82**: a line in reply to Increment or Decrement of a text client. -/
theorem C82_text_number (name k : Bytes) (d e : Int) {i l r : Bytes} (hr : Reply i l r) (x : Res Out) (r' : Bytes) :
    ((Mc.textCall name (.increment k d e)).rd i = (x, r') ↔ r' = r ∧ NumberMeans l x) ∧
    ((Mc.textCall name (.decrement k d e)).rd i = (x, r') ↔ r' = r ∧ NumberMeans l x) :=
  ⟨number_means hr x r' (Text.increment k d e) rfl, number_means hr x r' (Text.decrement k d e) rfl⟩

/-- **C82**: a line in reply to Increment or Decrement of a meta client. -/
theorem C82_meta_number (k : Bytes) (d e : Int) {i l r : Bytes} (hr : Reply i l r) (x : Res Out) (r' : Bytes) :
    ((Mc.metaCall (.increment k d e)).rd i = (x, r') ↔ r' = r ∧ NumberMeans l x) ∧
    ((Mc.metaCall (.decrement k d e)).rd i = (x, r') ↔ r' = r ∧ NumberMeans l x) :=
  ⟨number_means hr x r' (Meta.increment k d e) rfl, number_means hr x r' (Meta.decrement k d e) rfl⟩

theorem flush_means {i l r : Bytes} (hr : Reply i l r) (x : Res Out) (r' : Bytes) (c : Call Unit)
    (hc : c.rd = readSlice >>= fun b => if b = b!"OK\r\n" then pure ()
      else Rd.lift (sliceTo b (b.length - 2)) >>= fun d => Rd.fail (.msg (b!"memcached: " ++ d))) :
    (c.map fun _ => Out.done).rd i = (x, r') ↔ r' = r ∧ FlushMeans l x := by
  have key : ∃ y, (c.map fun _ => Out.done).rd i = (y, r) ∧ ∀ x, FlushMeans l x ↔ x = y := by
    simp only [Call.map, hc, means_line hr]
    by_cases h1 : l = b!"OK\r\n"
    · refine ⟨.ok .done, by simp only [if_pos h1]; rfl, fun x => ⟨fun h => ?_, ?_⟩⟩
      · generalize hm : l = l' at h
        cases h with
        | ok => rfl
        | other h2 => exact absurd (hm ▸ h1) h2
        | short => rw [h1] at hm; cases hm
      · rintro rfl
        rw [h1]; exact .ok
    · rcases ends_two hr.2.1 with ⟨a, rfl⟩ | ⟨d, a, b, rfl⟩
      · refine ⟨.panic, by simp only [if_neg h1]; rfl, fun x => ⟨fun h => ?_, ?_⟩⟩
        · generalize hm : [a] = l' at h
          cases h with
          | ok => cases hm
          | @other d a' b h2 => exact absurd (congrArg List.length hm) (by simp)
          | short => rfl
        · rintro rfl; exact .short
      · refine ⟨.err (.msg (b!"memcached: " ++ d)), ?_, fun x => ⟨fun h => ?_, ?_⟩⟩
        · simp only [if_neg h1, slice_two]; rfl
        · generalize hm : d ++ [a, b] = l' at h
          cases h with
          | ok => exact absurd hm h1
          | @other d' a' b' _ =>
            have := List.append_inj_left' hm rfl
            subst this; rfl
          | short => exact absurd (congrArg List.length hm) (by simp)
        · rintro rfl; exact .other h1
  obtain ⟨y, h1, h2⟩ := key
  rw [h1, h2]
  constructor
  · intro h; cases h; exact ⟨rfl, rfl⟩
  · rintro ⟨rfl, rfl⟩; rfl

/-- **C82**: a line in reply to Flush of a text or meta client. -/
theorem C82_flush (name : Bytes) {i l r : Bytes} (hr : Reply i l r) (x : Res Out) (r' : Bytes) :
    ((Mc.textCall name .flush).rd i = (x, r') ↔ r' = r ∧ FlushMeans l x) ∧
    ((Mc.metaCall .flush).rd i = (x, r') ↔ r' = r ∧ FlushMeans l x) :=
  ⟨flush_means hr x r' Text.flush rfl, flush_means hr x r' Meta.flush rfl⟩

theorem trimPrefix_iff {l p u : Bytes} : trimPrefix l p = u ↔ l = p ++ u ∨ u = l ∧ ¬ p <+: l := by
  unfold trimPrefix
  by_cases h : p <+: l
  · rw [if_pos (prefix_iff.2 h)]
    obtain ⟨v, rfl⟩ := h
    simp [eq_comm]
  · rw [if_neg (mt prefix_iff.1 h)]
    constructor
    · rintro rfl; exact .inr ⟨rfl, h⟩
    · rintro (rfl | ⟨rfl, _⟩)
      · exact absurd (List.prefix_append _ _) h
      · rfl

theorem trimSuffix_iff {u p v : Bytes} : trimSuffix u p = v ↔ u = v ++ p ∨ v = u ∧ ¬ p <:+ u := by
  unfold trimSuffix
  by_cases h : p <:+ u
  · rw [if_pos (List.isSuffixOf_iff_suffix.2 h)]
    obtain ⟨w, rfl⟩ := h
    simp [eq_comm]
  · rw [if_neg (mt List.isSuffixOf_iff_suffix.1 h)]
    constructor
    · rintro rfl; exact .inr ⟨rfl, h⟩
    · rintro (rfl | ⟨rfl, _⟩)
      · exact absurd (List.suffix_append _ _) h
      · rfl

/-- **C82**: a line in reply to Version of a text or meta client: never an error. -/
theorem C82_version {i l r : Bytes} (hr : Reply i l r) (x : Res Bytes) (r' : Bytes) :
    (Text.version.rd i = (x, r') ↔ r' = r ∧ ∃ v, VersionMeans l v ∧ x = .ok v) ∧
    (Meta.version.rd i = (x, r') ↔ r' = r ∧ ∃ v, VersionMeans l v ∧ x = .ok v) := by
  have key : (Res.ok (trimSuffix (trimPrefix l b!"VERSION ") crlf), r) = (x, r') ↔ r' = r ∧ ∃ v, VersionMeans l v ∧ x = .ok v := by
    constructor
    · intro h
      cases h
      exact ⟨rfl, _, ⟨_, trimPrefix_iff.1 rfl, trimSuffix_iff.1 rfl⟩, rfl⟩
    · rintro ⟨rfl, v, ⟨u, h1, h2⟩, rfl⟩
      rw [trimPrefix_iff.2 h1, trimSuffix_iff.2 h2]
  have h1 : Text.version.rd i = (Res.ok (trimSuffix (trimPrefix l b!"VERSION ") crlf), r) := means_line hr
  have h2 : Meta.version.rd i = (Res.ok (trimSuffix (trimPrefix l b!"VERSION ") crlf), r) := means_line hr
  rw [h1, h2]
  exact ⟨key, key⟩

/-! ### Binary -/

theorem means_head {α : Type} {f : Bin.ResHdr → Rd α} {h r : Bytes} (hh : BinHead h) :
    (Bin.readHdr >>= f) (h ++ r) = f (Bin.ResHdr.ofBytes h) r := by
  have : Bin.readHdr (h ++ r) = (.ok (Bin.ResHdr.ofBytes h), r) := by
    unfold Bin.readHdr
    rw [Rd.bind_of_ok (readFull_append' 24 h r hh.1), hh.2]
    rfl
  rw [Rd.bind_of_ok this]

theorem lookup_name (st : Nat) : Bin.binaryStatus.lookup st = statusName st := by
  by_cases h1 : st = 1
  · subst h1; rfl
  by_cases h2 : st = 2
  · subst h2; rfl
  by_cases h3 : st = 3
  · subst h3; rfl
  by_cases h4 : st = 4
  · subst h4; rfl
  by_cases h6 : st = 6
  · subst h6; rfl
  by_cases h7 : st = 129
  · subst h7; rfl
  by_cases h8 : st = 130
  · subst h8; rfl
  · have e : statusName st = none := by
      unfold statusName
      split <;> first | rfl | contradiction
    rw [e]
    have b : ∀ n, st ≠ n → (st == n) = false := fun n h => by simp [h]
    simp only [Bin.binaryStatus, List.lookup, b _ h1, b _ h2, b _ h3, b _ h4, b _ h6, b _ h7, b _ h8]

theorem statusErr_text (st : Nat) : Bin.statusErr st = statusText st := by
  unfold Bin.statusErr statusText
  rw [lookup_name]
  cases statusName st <;> rfl

/-- **C82**: a header in reply to Set, Add, Touch or Flush of a binary client: nothing after it is read. -/
theorem C82_binary_head (h1 h2 : Bin.ReqHdr) (o : Spec.Op) {h r : Bytes} (hh : BinHead h) {x : Res Out}
    (hx : headMeans o (opcodeOf h) (statusOf h) = some x) : (Mc.binCall h1 h2 o).rd (h ++ r) = (x, r) := by
  have hop : (Bin.ResHdr.ofBytes h).opcode = opcodeOf h := rfl
  have hst : (Bin.ResHdr.ofBytes h).status = statusOf h := rfl
  cases o with
  | set it =>
    cases hx
    simp only [Mc.binCall, Call.map, Bin.set, means_head hh, hop, hst]
    by_cases a1 : opcodeOf h ≠ 1
    · rw [if_pos (by exact a1), if_pos a1]; rfl
    · rw [if_neg (by exact a1), if_neg a1]
      by_cases a2 : statusOf h = 0
      · rw [if_neg (by simp [a2]), if_pos a2]; rfl
      · rw [if_pos a2, if_neg a2]
        by_cases a3 : statusOf h = 2
        · rw [if_pos a3, if_pos a3]; rfl
        · rw [if_neg a3, if_neg a3, ← statusErr_text]; rfl
  | add it =>
    cases hx
    simp only [Mc.binCall, Call.map, Bin.add, means_head hh, hop, hst]
    by_cases a1 : opcodeOf h ≠ 2
    · rw [if_pos (by exact a1), if_pos a1]; rfl
    · rw [if_neg (by exact a1), if_neg a1]
      by_cases a2 : statusOf h = 0
      · rw [if_neg (by simp [a2]), if_pos a2]; rfl
      · rw [if_pos a2, if_neg a2]
        by_cases a3 : statusOf h = 2
        · rw [if_pos a3, if_pos a3]; rfl
        · rw [if_neg a3, if_neg a3, ← statusErr_text]; rfl
  | touch k e =>
    cases hx
    simp only [Mc.binCall, Call.map, Bin.touch, means_head hh, hst]
    by_cases a2 : statusOf h = 0
    · rw [if_neg (by simp [a2]), if_pos a2]; rfl
    · rw [if_pos a2, if_neg a2, ← statusErr_text]; rfl
  | flush =>
    cases hx
    simp only [Mc.binCall, Call.map, Bin.flush, means_head hh, hop]
    by_cases a1 : opcodeOf h ≠ 8
    · rw [if_pos (by exact a1), if_pos a1]; rfl
    · rw [if_neg (by exact a1), if_neg a1]; rfl
  | get k => cases hx
  | getMulti ks => cases hx
  | replace it => cases hx
  | delete k => cases hx
  | increment k d e => cases hx
  | decrement k d e => cases hx

/-- **C82**: the reply to another operation, for Replace, Delete, Increment and Decrement of a binary client: the body is
not read. -/
theorem C82_binary_foreign (h1 h2 : Bin.ReqHdr) (o : Spec.Op) {h r : Bytes} (hh : BinHead h) {op : UInt8} (ho : ownOpcode o = some op)
    (hne : opcodeOf h ≠ op) : (Mc.binCall h1 h2 o).rd (h ++ r) = (.err invalid, r) := by
  have hop : (Bin.ResHdr.ofBytes h).opcode = opcodeOf h := rfl
  cases o with
  | replace it => cases ho; simp only [Mc.binCall, Call.map, Bin.replace, means_head hh, hop]; rw [if_pos (by exact hne)]; rfl
  | delete k => cases ho; simp only [Mc.binCall, Call.map, Bin.delete, means_head hh, hop]; rw [if_pos (by exact hne)]; rfl
  | increment k d e =>
    cases ho; simp only [Mc.binCall, Call.map, Bin.increment, Bin.incrOrDecr, means_head hh, hop]; rw [if_pos (by exact hne)]; rfl
  | decrement k d e =>
    cases ho; simp only [Mc.binCall, Call.map, Bin.decrement, Bin.incrOrDecr, means_head hh, hop]; rw [if_pos (by exact hne)]; rfl
  | _ => cases ho

theorem means_full {α : Type} {f : Bytes → Rd α} {n : Nat} {b r : Bytes} (hl : b.length = n) : (readFull n >>= f) (b ++ r) = f b r := by
  rw [Rd.bind_of_ok (readFull_append' n b r hl)]

/-- **C82**: a reply with an error status, for Get, Replace, Delete, Increment and Decrement of a binary client: the body
is read, and Increment and Decrement put it into the error. -/
theorem C82_binary_fails (h1 h2 : Bin.ReqHdr) (o : Spec.Op) {i h body r : Bytes} (hr : BinReply i h body r)
    (ho : ∀ op, ownOpcode o = some op → opcodeOf h = op) (hst : statusOf h ≠ 0) {e : Err} (he : failMeans o (statusOf h) body = some e) :
    (Mc.binCall h1 h2 o).rd i = (.err e, r) := by
  obtain ⟨rfl, hh, hb⟩ := hr
  have hop : (Bin.ResHdr.ofBytes h).opcode = opcodeOf h := rfl
  have hs : (Bin.ResHdr.ofBytes h).status = statusOf h := rfl
  have hbl : body.length = (Bin.ResHdr.ofBytes h).totalBodyLength := hb
  have num : ∀ (op : UInt8) (k : Bytes) (d e' : Int), opcodeOf h = op → e = statusTextBody (statusOf h) body →
      ((Bin.incrOrDecr h1 op k d e').map Out.num).rd (h ++ body ++ r) = (.err e, r) := by
    intro op k d e' ho he
    simp only [Call.map, Bin.incrOrDecr, List.append_assoc, means_head hh, hop]
    rw [if_neg (by rw [ho]; simp)]
    simp only [means_full hbl, hs]
    rw [if_pos hst, lookup_name, he]
    unfold statusTextBody
    cases statusName (statusOf h) with
    | none => simp [Rd.fail, Res.map]
    | some n =>
      cases body with
      | nil => simp [Rd.fail, Res.map]
      | cons a t => simp [Rd.fail, Res.map]
  cases o with
  | get k =>
    cases he
    simp only [Mc.binCall, Call.map, Bin.get, Bin.getReply, List.append_assoc, means_head hh, means_full hbl, hs]
    rw [if_pos hst]
    by_cases a : statusOf h = 1
    · rw [if_pos a, if_pos a]; rfl
    · rw [if_neg a, if_neg a, ← statusErr_text]; rfl
  | replace it =>
    cases he
    simp only [Mc.binCall, Call.map, Bin.replace, List.append_assoc, means_head hh, hop]
    rw [if_neg (by simp [ho _ rfl, Bin.opReplace])]
    simp only [means_full hbl, hs]
    rw [if_pos hst]
    by_cases a : statusOf h = 1
    · rw [if_pos a, if_pos a]; rfl
    · rw [if_neg a, if_neg a, ← statusErr_text]; rfl
  | delete k =>
    cases he
    simp only [Mc.binCall, Call.map, Bin.delete, List.append_assoc, means_head hh, hop]
    rw [if_neg (by simp [ho _ rfl, Bin.opDelete])]
    simp only [means_full hbl, hs]
    rw [if_pos hst]
    by_cases a : statusOf h = 1
    · rw [if_pos a, if_pos a]; rfl
    · rw [if_neg a, if_neg a, ← statusErr_text]; rfl
  | increment k d e' => cases he; exact num _ _ _ _ (ho _ rfl) rfl
  | decrement k d e' => cases he; exact num _ _ _ _ (ho _ rfl) rfl
  | set it => cases he
  | add it => cases he
  | touch k e' => cases he
  | flush => cases he
  | getMulti ks => cases he

/-- **C82**: Version of a binary client: with an error status nothing after the header is read, otherwise the body is the
version. -/
theorem C82_binary_version (hd : Bin.ReqHdr) {i h r : Bytes} (hh : BinHead h) :
    (statusOf h ≠ 0 → (Bin.version hd).rd (h ++ r) = (.err (statusText (statusOf h)), r)) ∧
    (∀ body, BinReply i h body r → statusOf h = 0 → (Bin.version hd).rd i = (.ok body, r)) := by
  have hs : (Bin.ResHdr.ofBytes h).status = statusOf h := rfl
  constructor
  · intro hst
    simp only [Bin.version, means_head hh, hs]
    rw [if_pos hst, ← statusErr_text]; rfl
  · rintro body ⟨rfl, _, hb⟩ hst
    have hbl : body.length = (Bin.ResHdr.ofBytes h).totalBodyLength := hb
    simp only [Bin.version, List.append_assoc, means_head hh, hs]
    rw [if_neg (by simp [hst])]
    exact readFull_append' _ body r hbl

/-- **C82**: Increment and Decrement of a binary client on status 0: the first eight bytes of the body are the number, as
a signed one; with fewer they panic. -/
theorem C82_binary_number (h1 h2 : Bin.ReqHdr) (k : Bytes) (d e : Int) {i h body r : Bytes} (hr : BinReply i h body r)
    (hst : statusOf h = 0) :
    (opcodeOf h = 5 → (Mc.binCall h1 h2 (.increment k d e)).rd i =
      (if 8 ≤ body.length then .ok (.num (toSigned 64 (getBE (body.take 8)))) else .panic, r)) ∧
    (opcodeOf h = 6 → (Mc.binCall h1 h2 (.decrement k d e)).rd i =
      (if 8 ≤ body.length then .ok (.num (toSigned 64 (getBE (body.take 8)))) else .panic, r)) := by
  obtain ⟨rfl, hh, hb⟩ := hr
  have hop : (Bin.ResHdr.ofBytes h).opcode = opcodeOf h := rfl
  have hs : (Bin.ResHdr.ofBytes h).status = statusOf h := rfl
  have hbl : body.length = (Bin.ResHdr.ofBytes h).totalBodyLength := hb
  have num : ∀ op : UInt8, opcodeOf h = op → ((Bin.incrOrDecr h1 op k d e).map Out.num).rd (h ++ body ++ r) =
      (if 8 ≤ body.length then .ok (.num (toSigned 64 (getBE (body.take 8)))) else .panic, r) := by
    intro op ho
    simp only [Call.map, Bin.incrOrDecr, List.append_assoc, means_head hh, hop]
    rw [if_neg (by rw [ho]; simp)]
    simp only [means_full hbl, hs]
    rw [if_neg (by simp [hst])]
    unfold beUint
    by_cases h8 : 8 ≤ body.length
    · rw [if_pos h8, if_pos h8]; rfl
    · rw [if_neg h8, if_neg h8]; rfl
  exact ⟨num 5, num 6⟩

/-- **C82**: whatever the operation of a binary client, 24 bytes that do not begin with 0x81 are an error, and no more
than these are read. -/
theorem C82_binary_magic (h1 h2 : Bin.ReqHdr) (o : Spec.Op) {h r : Bytes} (hl : h.length = 24) (hm : h.head? ≠ some 0x81) :
    (Mc.binCall h1 h2 o).rd (h ++ r) = (.err invalid, r) ∧ (Bin.version h1).rd (h ++ r) = (.err invalid, r) := by
  have hr : Bin.readHdr (h ++ r) = (.err invalid, r) := by
    unfold Bin.readHdr
    rw [Rd.bind_of_ok (readFull_append' 24 h r hl), if_pos hm]
    rfl
  have bad : ∀ {α : Type} (f : Bin.ResHdr → Rd α), (Bin.readHdr >>= f) (h ++ r) = (.err invalid, r) := fun f => by
    rw [Rd.bind_apply, hr]
  refine ⟨?_, bad _⟩
  cases o with
  | get k => simp only [Mc.binCall, Call.map, Bin.get, Bin.getReply, bad]; rfl
  | getMulti ks =>
    have : Bin.multiLoop ((h ++ r).length + 1) [] (h ++ r) = (.err invalid, r) := bad _
    simp only [Mc.binCall, Call.map, Bin.getMulti, this]; rfl
  | set it => simp only [Mc.binCall, Call.map, Bin.set, bad]; rfl
  | add it => simp only [Mc.binCall, Call.map, Bin.add, bad]; rfl
  | replace it => simp only [Mc.binCall, Call.map, Bin.replace, bad]; rfl
  | delete k => simp only [Mc.binCall, Call.map, Bin.delete, bad]; rfl
  | increment k d e => simp only [Mc.binCall, Call.map, Bin.increment, Bin.incrOrDecr, bad]; rfl
  | decrement k d e => simp only [Mc.binCall, Call.map, Bin.decrement, Bin.incrOrDecr, bad]; rfl
  | touch k e => simp only [Mc.binCall, Call.map, Bin.touch, bad]; rfl
  | flush => simp only [Mc.binCall, Call.map, Bin.flush, bad]; rfl

/-- **C82**: text Get: a first line that is neither `END` nor begins with `VALUE` is an error. -/
theorem C82_text_get_line (name k : Bytes) {i l r : Bytes} (hr : Reply i l r) (h1 : l ≠ b!"END\r\n") (h2 : ¬ b!"VALUE" <+: l) :
    (Text.get name k).rd i = (.err invalid, r) := by
  simp only [Text.get, Text.getReply, means_line hr]
  rw [if_neg (by exact h1), if_pos (by
    cases hp : hasPrefix l b!"VALUE" with
    | false => rfl
    | true => exact absurd (prefix_iff.1 hp) h2)]
  rfl

/-- **C82**: text Get: a first line that begins with `VALUE` but is not the head of a value is a scanning error. -/
theorem C82_text_get_scan (name k : Bytes) {i l r : Bytes} (hr : Reply i l r) (h2 : b!"VALUE" <+: l)
    (hn : ∀ key flags size cas, ¬ ValueHead l key flags size cas) : (Text.get name k).rd i = (.err .scan, r) := by
  have h1 : l ≠ b!"END\r\n" := by rintro rfl; revert h2; decide
  simp only [Text.get, Text.getReply, means_line hr]
  rw [if_neg (by exact h1), if_neg (by rw [prefix_iff.2 h2]; simp)]
  cases hs : Scan.scanValue (l.count 32 != 3) l with
  | none => rfl
  | some q =>
    obtain ⟨key, flags, size, cas⟩ := q
    exact absurd (scanValue_iff.1 ⟨h2, hs⟩) (hn key flags size cas)

/-- **C82**: text Get: a value that is not followed by `END` is an error. -/
theorem C82_text_get_tail (name k : Bytes) {hdr value pad e r key : Bytes} {flags cas : Nat} (hl : Line hdr) (h4 : hdr.length ≤ 4096)
    (hv : ValueHead hdr key flags value.length cas) (hp : pad.length = 2) (hm : value.length + 2 ≤ maxAlloc) {i : Bytes}
    (hr : Reply i e r) (he : e ≠ b!"END\r\n") : (Text.get name k).rd (hdr ++ value ++ pad ++ i) = (.err invalid, r) := by
  obtain ⟨h2, hs⟩ := scanValue_iff.2 hv
  have h1 : hdr ≠ b!"END\r\n" := by rintro rfl; revert h2; decide
  have hrep : Reply (hdr ++ value ++ pad ++ i) hdr (value ++ pad ++ i) := ⟨by simp, hl, h4⟩
  simp only [Text.get, Text.getReply, means_line hrep]
  rw [if_neg (by exact h1), if_neg (by rw [prefix_iff.2 h2]; simp)]
  simp only [hs]
  have hn : readN ((value.length : Int) + 2) (value ++ pad ++ i) = (.ok (value ++ pad), i) := by
    unfold readN makeLen
    have : ((value.length : Int) + 2).toNat = (value ++ pad).length := by rw [List.length_append, hp]; omega
    rw [if_pos ⟨by omega, by omega⟩, this]
    exact readFull_append' _ (value ++ pad) i rfl
  rw [Rd.bind_of_ok hn]
  have hsl : sliceTo (value ++ pad) (value.length : Int) = .ok value := by
    unfold sliceTo
    rw [if_pos ⟨by omega, by rw [List.length_append]; omega⟩]
    simp
  rw [hsl]
  show (readSlice >>= _) i = _
  rw [means_line hr, if_pos (by exact he)]
  rfl

/-- **C82**: binary GetMulti: an error status ends it, whatever came before; what follows that header is not read. -/
theorem C82_binary_multi_fails (h1 h2 : Bin.ReqHdr) (ks : List Bytes) {b h r : Bytes} {items : List Item} (hb : Blocks BinMultiBlock b items)
    (hh : BinHead h) (ho : opcodeOf h ≠ 10) (hs : statusOf h ≠ 0) :
    (Bin.getMulti h1 h2 ks).rd (b ++ h ++ r) = (.err (statusText (statusOf h)), r) := by
  have key : ∀ n acc, (b ++ h ++ r).length < n → Bin.multiLoop n acc (b ++ h ++ r) = (.err (statusText (statusOf h)), r) := by
    induction hb with
    | nil =>
      intro n acc hn
      cases n with
      | zero => omega
      | succ n =>
        unfold Bin.multiLoop
        rw [List.nil_append, means_head hh, if_neg (by exact ho), if_pos (by exact hs), ← statusErr_text]
        rfl
    | @cons _ i' item items' hb hbs ih =>
      intro n acc hn
      cases n with
      | zero => omega
      | succ n =>
        cases hb with
        | @mk h0 body hh0 ho0 hs0 hl0 a1 a2 =>
          have hs' : (Bin.ResHdr.ofBytes h0).status = 0 := hs0
          have e : h0 ++ body ++ i' ++ h ++ r = h0 ++ (body ++ (i' ++ h ++ r)) := by simp
          rw [e, Bin.multiLoop.eq_2, means_head hh0, if_neg (by exact ho0), if_neg (by simp [hs'])]
          have hbl : body.length = (Bin.ResHdr.ofBytes h0).totalBodyLength := hl0
          rw [means_full hbl]
          have e1 : slice body (Bin.ResHdr.ofBytes h0).extraLength (Bin.ResHdr.ofBytes h0).valueStart = .ok _ :=
            slice_take.2 ⟨a1, a2, rfl⟩
          have e2 : sliceFrom body (Bin.ResHdr.ofBytes h0).valueStart = .ok _ := sliceFrom_drop.2 ⟨a2, rfl⟩
          have e3 : sliceTo body ((Bin.ResHdr.ofBytes h0).extraLength : Nat) = .ok _ := sliceTo_take.2 ⟨Nat.le_trans a1 a2, rfl⟩
          rw [e1, e2, e3]
          refine ih n _ ?_
          have := hh0.1
          simp only [List.length_append] at hn ⊢
          omega
  exact key _ _ (by omega)

/-- **C82**: the lines that are a miss or an error for a meta Get: `EN` and `MN` are misses, other lines without `VA` are
errors. -/
theorem C82_meta_get_line (k : Bytes) {i l r : Bytes} (hr : Reply i l r) (h2 : ¬ b!"VA" <+: l) :
    (Meta.get k).rd i = (if l = b!"EN\r\n" ∨ l = b!"MN\r\n" then .err .itemNotFound
      else .err (.msg b!"memcached: invalid get response"), r) := by
  have hf : hasPrefix l b!"VA" = false := by
    cases hp : hasPrefix l b!"VA" with
    | false => rfl
    | true => exact absurd (prefix_iff.1 hp) h2
  have key : Meta.parseGetResponse i = (if l = b!"EN\r\n" ∨ l = b!"MN\r\n" then .err .itemNotFound
      else .err (.msg b!"memcached: invalid get response"), r) := by
    unfold Meta.parseGetResponse
    rw [means_line hr]
    by_cases a : l = b!"EN\r\n"
    · subst a; rfl
    · by_cases b : l = b!"MN\r\n"
      · subst b; rfl
      · rw [if_neg (by exact a), if_neg (by exact b), if_pos hf, if_neg (fun h => h.elim a b)]; rfl
  show (Meta.parseGetResponse >>= _) i = _
  rw [Rd.bind_apply, key]
  by_cases a : l = b!"EN\r\n" ∨ l = b!"MN\r\n"
  · rw [if_pos a]
  · rw [if_neg a]

/-! ### Replies the theorems speak about -/

example : (Mc.textCall b!"s" (.set { key := b!"k" })).rd (b!"SERVER_ERROR x\r\n" ++ b!"rest")
    = (.err (.msg b!"memcached: failed set: SERVER_ERROR x\r\n"), b!"rest") :=
  C82_text_word _ _ ⟨rfl, ⟨b!"SERVER_ERROR x\r", rfl, by decide⟩, by decide⟩ rfl

example : (Mc.metaCall (.touch b!"k" 3)).rd (b!"NF\r\n" ++ b!"rest") = (.err (.msg b!"memcached: failed touch"), b!"rest") :=
  C82_meta_word _ ⟨rfl, ⟨b!"NF\r", rfl, by decide⟩, by decide⟩ rfl

/-- The error reply of the binary protocol to a Set of a value that is too large. -/
example : (Mc.binCall {} {} (.set { key := b!"k" })).rd
    ([0x81, 1, 0, 0, 0, 0, 0, 3, 0, 0, 0, 3, 0, 0, 0, 0, 0, 0, 0, 0, 0, 0, 0, 0] ++ b!"Too")
    = (.err (.msg b!"memcached: error value too large"), b!"Too") :=
  C82_binary_head _ _ _ ⟨rfl, rfl⟩ (by decide +kernel)

example : (Mc.binCall {} {} (.increment b!"k" 1 0)).rd
    ([0x81, 5, 0, 0, 0, 0, 0, 9, 0, 0, 0, 1, 0, 0, 0, 0, 0, 0, 0, 0, 0, 0, 0, 0] ++ b!"x" ++ b!"rest")
    = (.err (.msg (b!"memcached: unknown error " ++ natDec 9 ++ b!" (x)")), b!"rest") :=
  C82_binary_fails _ _ _ ⟨rfl, ⟨rfl, rfl⟩, rfl⟩ (by rintro op ⟨⟩; rfl) (by decide) (by
    simp [failMeans, statusTextBody, statusName, statusOf, getBE])

end Props
end Verif
