import Verif.Props.History
import Verif.Props.MetaReplies
/-! C52 for meta connections, and C25. -/

namespace Verif
namespace Props
open Kv Spec Mc

theorem ttl_eq (now : Nat) (e : Entry) : ttl now e = lifetime now e := rfl

theorem lifetime_range {s : Store} (hs : GoodStore s) {k : Bytes} {e : Entry} (h : s.find k = some e) :
    InRange 32 (lifetime s.now e) := by
  obtain ⟨_, _, _, h4⟩ := hs.entry k e (find_data h)
  unfold Store.find at h
  rw [find_data (s := s) (k := k) (e := e) (by unfold Store.find; exact h)] at h
  simp only at h
  unfold lifetime InRange
  cases hx : e.expiry with
  | none => simp
  | some x =>
    have := h4 x hx
    split at h
    · rename_i hl
      simp only [Entry.live, hx, decide_eq_true_eq] at hl
      simp only
      constructor <;> omega
    · cases h

theorem find_flags {s : Store} (hs : GoodMetaStore s) {k : Bytes} {e : Entry} (h : s.find k = some e) :
    e.flags < 2 ^ 31 := hs.flags k e (find_data h)

/-- Tokens of the client's two kinds of `mg`. -/
theorem readTok_f (it : Item) (n : Nat) (h : n < 2 ^ 31) :
    Meta.readGetFlagToken 102 (natDec n) it = .ok { it with flags := some (putBE 4 n) } := by
  have : toUnsigned 32 (n : Int) = n := by
    rw [toUnsigned_of_nonneg 32 (n : Int) (by omega) (by
      have : (2 : Nat) ^ 31 < 2 ^ 32 := by decide
      have : n < 2 ^ 32 := by omega
      exact_mod_cast this)]
    simp
  unfold Meta.readGetFlagToken
  rw [if_pos rfl, parseInt_natDec n 32 h (by omega)]
  simp only [numRes, Res.bind_ok, this]
  rfl

theorem readTok_c (it : Item) (n : Nat) (h : n < 2 ^ 63) :
    Meta.readGetFlagToken 99 (natDec n) it = .ok { it with cas := n } := by
  have : toUnsigned 64 (n : Int) = n := by
    rw [toUnsigned_of_nonneg 64 (n : Int) (by omega) (by
      have : (2 : Nat) ^ 63 < 2 ^ 64 := by decide
      have : n < 2 ^ 64 := by omega
      exact_mod_cast this)]
    simp
  unfold Meta.readGetFlagToken
  rw [if_neg (by decide), if_pos rfl, parseInt_natDec n 64 h (by omega)]
  simp only [numRes, Res.bind_ok, this]
  rfl

theorem readTok_t (it : Item) (n : Int) (h : InRange 32 n) :
    Meta.readGetFlagToken 116 (intDec n) it = .ok { it with expiration := n } := by
  unfold Meta.readGetFlagToken
  rw [if_neg (by decide), if_neg (by decide), if_pos rfl, parseInt_intDec n 32 h (by omega)]
  rfl

theorem readTok_k (it : Item) (k : Bytes) :
    Meta.readGetFlagToken 107 k it = .ok { it with key := k } := rfl

theorem natDec_tok (n : Nat) : ∀ b ∈ natDec n, b ≠ 32 ∧ b ≠ 13 := fun b hb =>
  ⟨fun h => natDec_no32 n (h ▸ hb), fun h => natDec_no n 13 (by decide) (h ▸ hb)⟩

theorem intDec_tok (n : Int) : ∀ b ∈ intDec n, b ≠ 32 ∧ b ≠ 13 := fun b hb =>
  ⟨fun h => intDec_no32 n (h ▸ hb), fun h => intDec_no n 13 (by decide) (by decide) (h ▸ hb)⟩

theorem key_tok {k : Bytes} (hk : Key k) : ∀ b ∈ k, b ≠ 32 ∧ b ≠ 13 := fun b hb =>
  ⟨(hk.1.textKey.mem b hb).1, (hk.1.textKey.mem b hb).2.2⟩

/-- The reply to a hit, seen by the client.  `toks` are the tokens in the order sent. -/
theorem parse_hit (s : Store) (toks : List (UInt8 × Bytes)) (p : UInt8 × Bytes) (it : Item) (e : Entry)
    (hv : e.value.length ≤ maxValue) (ht : ∀ q ∈ p :: toks, Meta.GoodTok q)
    (h10 : (10 : UInt8) ∉ Meta.tokBytes (p :: toks)) (hlen : (Meta.tokBytes (p :: toks)).length ≤ 3000)
    (hf : Meta.foldToks {} (p :: toks) = .ok it) (rest : Bytes) :
    Meta.parseGetResponse (b!"VA " ++ natDec e.value.length ++ Meta.tokBytes (p :: toks) ++ crlf
        ++ e.value ++ crlf ++ rest)
      = (.ok { it with value := e.value }, rest) := by
  have h31 := maxValue31 hv
  have hl := natDec_length64 e.value.length (Nat.lt_trans h31 (by decide))
  have hst := Meta.hdrScan_va e.value.length h31 p toks ht it hf
  have := Meta.parseGetResponse_va (natDec e.value.length ++ Meta.tokBytes (p :: toks) ++ [13]) e.value rest it
    (by simp only [List.mem_append, not_or]; exact ⟨⟨natDec_no10 _, h10⟩, by decide⟩)
    (by simp only [List.length_append, List.length_singleton]; omega) (le_maxAlloc h31)
    (by simpa [List.append_assoc] using hst)
  simpa [crlf, List.append_assoc] using this

theorem mg_toks_get (now : Nat) (k : Bytes) (e : Entry) :
    [b!"v", b!"f", b!"c", b!"t"].flatMap (mgTok now k e)
      = Meta.tokBytes [(102, natDec e.flags), (99, natDec e.cas), (116, intDec (ttl now e))] := by
  simp [mgTok, Meta.tokBytes]

theorem mg_toks_multi (now : Nat) (k : Bytes) (e : Entry) :
    [b!"v", b!"f", b!"k", b!"c", b!"t"].flatMap (mgTok now k e)
      = Meta.tokBytes [(102, natDec e.flags), (107, k), (99, natDec e.cas), (116, intDec (ttl now e))] := by
  simp [mgTok, Meta.tokBytes]

theorem cas63 {s : Store} (hs : GoodStore s) {k : Bytes} {e : Entry} (h : s.data k = some e) :
    e.cas < 2 ^ 63 := by
  have h1 := (hs.entry k e h).2.1
  have h2 := hs.cas
  omega

theorem sends_mg (k : Bytes) (hk : Key k) :
    Sends (b!"mg " ++ k ++ b!" v f c t\r\n") (some (.mg k [b!"v", b!"f", b!"c", b!"t"])) := by
  have := sends_line [b!"mg", k, b!"v", b!"f", b!"c", b!"t"] (some (.mg k [b!"v", b!"f", b!"c", b!"t"]))
    (by simp)
    (by
      intro w hw
      simp only [List.mem_cons, List.not_mem_nil, or_false] at hw
      rcases hw with rfl | rfl | rfl | rfl | rfl | rfl <;> first | exact keyPlain hk | decide) rfl
  simpa [joinSp, crlf] using this

theorem sends_mg_multi (k : Bytes) (hk : Key k) :
    Sends (b!"mg " ++ k ++ b!" v f k c t\r\n") (some (.mg k [b!"v", b!"f", b!"k", b!"c", b!"t"])) := by
  have := sends_line [b!"mg", k, b!"v", b!"f", b!"k", b!"c", b!"t"]
    (some (.mg k [b!"v", b!"f", b!"k", b!"c", b!"t"])) (by simp)
    (by
      intro w hw
      simp only [List.mem_cons, List.not_mem_nil, or_false] at hw
      rcases hw with rfl | rfl | rfl | rfl | rfl | rfl | rfl <;> first | exact keyPlain hk | decide) rfl
  simpa [joinSp, crlf] using this

theorem sends_mn : Sends b!"mn\r\n" (some .mn) :=
  sends_line [b!"mn"] (some .mn) (by simp) (by decide) rfl

theorem tok_len {n : Nat} (h : n < 2 ^ 64) : (natDec n).length ≤ 20 := natDec_length64 n h

theorem inRange_widen {i : Int} (h : InRange 32 i) : InRange 64 i := by
  unfold InRange at *
  omega

/-- The client reads the reply to a `mg` of a present key. -/
theorem meta_get_hit {s : Store} (hs : GoodMetaStore s) (k : Bytes) (hk : Key k) (e : Entry)
    (hf : s.find k = some e) (rest : Bytes) :
    Meta.parseGetResponse ((exec s (.mg k [b!"v", b!"f", b!"c", b!"t"])).1 ++ rest)
      = (.ok { metaItem s.now k e with key := [] }, rest) := by
  obtain ⟨h1, h2, h3, h4⟩ := hs.good.entry k e (find_data hf)
  have hr := lifetime_range hs.good hf
  have hl1 := natDec_length64 e.flags (Nat.lt_trans h1 (by decide))
  have hl2 := natDec_length64 e.cas (cas64 hs.good (find_data hf))
  have hl3 := intDec_length64 _ (inRange_widen hr)
  have hx : (exec s (.mg k [b!"v", b!"f", b!"c", b!"t"])).1
      = b!"VA " ++ natDec e.value.length
        ++ Meta.tokBytes [(102, natDec e.flags), (99, natDec e.cas), (116, intDec (lifetime s.now e))]
        ++ crlf ++ e.value ++ crlf := by
    rw [← ttl_eq, ← mg_toks_get s.now k e]
    simp [exec, hf]
  rw [hx]
  have := parse_hit s [(99, natDec e.cas), (116, intDec (lifetime s.now e))] (102, natDec e.flags)
    { flags := some (putBE 4 e.flags), cas := e.cas, expiration := lifetime s.now e } e h3
    (by
      intro q hq
      simp only [List.mem_cons, List.not_mem_nil, or_false] at hq
      rcases hq with rfl | rfl | rfl
      · exact ⟨by simp, natDec_tok _⟩
      · exact ⟨by simp, natDec_tok _⟩
      · exact ⟨by simp, intDec_tok _⟩)
    (by simp [Meta.tokBytes, natDec_no10, intDec_no10])
    (by simp only [Meta.tokBytes, List.flatMap_cons, List.flatMap_nil, List.length_append, List.length_cons, List.length_nil]; omega)
    (by
      simp only [Meta.foldToks]
      rw [readTok_f _ _ (hs.flags k e (find_data hf)), Res.bind_ok, readTok_c _ _ (cas63 hs.good (find_data hf)),
        Res.bind_ok, readTok_t _ _ hr, Res.bind_ok]) rest
  rw [this]
  rfl

theorem meta_multi_hit {s : Store} (hs : GoodMetaStore s) (k : Bytes) (hk : Key k) (e : Entry)
    (hf : s.find k = some e) (rest : Bytes) :
    Meta.parseGetResponse ((exec s (.mg k [b!"v", b!"f", b!"k", b!"c", b!"t"])).1 ++ rest)
      = (.ok (metaItem s.now k e), rest) := by
  obtain ⟨h1, h2, h3, h4⟩ := hs.good.entry k e (find_data hf)
  have hr := lifetime_range hs.good hf
  have hl1 := natDec_length64 e.flags (Nat.lt_trans h1 (by decide))
  have hl2 := natDec_length64 e.cas (cas64 hs.good (find_data hf))
  have hl3 := intDec_length64 _ (inRange_widen hr)
  have hl4 := hk.2
  have hx : (exec s (.mg k [b!"v", b!"f", b!"k", b!"c", b!"t"])).1
      = b!"VA " ++ natDec e.value.length
        ++ Meta.tokBytes [(102, natDec e.flags), (107, k), (99, natDec e.cas), (116, intDec (lifetime s.now e))]
        ++ crlf ++ e.value ++ crlf := by
    rw [← ttl_eq, ← mg_toks_multi s.now k e]
    simp [exec, hf]
  rw [hx]
  have := parse_hit s [(107, k), (99, natDec e.cas), (116, intDec (lifetime s.now e))] (102, natDec e.flags)
    { key := k, flags := some (putBE 4 e.flags), cas := e.cas, expiration := lifetime s.now e } e h3
    (by
      intro q hq
      simp only [List.mem_cons, List.not_mem_nil, or_false] at hq
      rcases hq with rfl | rfl | rfl | rfl
      · exact ⟨by simp, natDec_tok _⟩
      · exact ⟨by simp, key_tok hk⟩
      · exact ⟨by simp, natDec_tok _⟩
      · exact ⟨by simp, intDec_tok _⟩)
    (by simp [Meta.tokBytes, natDec_no10, intDec_no10, (keyPlain hk).2])
    (by simp only [Meta.tokBytes, List.flatMap_cons, List.flatMap_nil, List.length_append, List.length_cons, List.length_nil]; omega)
    (by
      simp only [Meta.foldToks]
      rw [readTok_f _ _ (hs.flags k e (find_data hf)), Res.bind_ok, readTok_k, Res.bind_ok,
        readTok_c _ _ (cas63 hs.good (find_data hf)), Res.bind_ok, readTok_t _ _ hr, Res.bind_ok]) rest
  rw [this]
  rfl

/-- The bytes `GetMulti` sends. -/
def multiWire (ks : List Bytes) : Bytes :=
  ks.flatMap (fun key => b!"mg " ++ key ++ b!" v f k c t\r\n") ++ b!"mn\r\n"

/-- The bytes memcached answers to `GetMulti`. -/
def multiReply (s : Store) (ks : List Bytes) : Bytes :=
  ks.flatMap (fun k => (exec s (.mg k [b!"v", b!"f", b!"k", b!"c", b!"t"])).1) ++ b!"MN\r\n"

theorem answer_multi (s : Store) (ks : List Bytes) (hk : ∀ k ∈ ks, Key k) :
    answer s (multiWire ks) = some (multiReply s ks, s) := by
  have hloop : ∀ n, ks.length < n → answerLoop n s (multiWire ks) = some (multiReply s ks, s) := by
    induction ks with
    | nil =>
      intro n hn
      obtain ⟨m, rfl⟩ : ∃ m, n = m + 1 := ⟨n - 1, by simp at hn; omega⟩
      have := answerLoop_sends sends_mn m s []
      rw [answerLoop_nil] at this
      simpa [multiWire, multiReply, execLine, exec] using this
    | cons k ks ih =>
      intro n hn
      obtain ⟨m, rfl⟩ : ∃ m, n = m + 1 := ⟨n - 1, by simp at hn; omega⟩
      have := answerLoop_sends (sends_mg_multi k (hk k (by simp))) m s (multiWire ks)
      have e : multiWire (k :: ks) = (b!"mg " ++ k ++ b!" v f k c t\r\n") ++ multiWire ks := by
        simp [multiWire]
      rw [e, this]
      have hs' : (execLine s (some (Cmd.mg k [b!"v", b!"f", b!"k", b!"c", b!"t"]))).2 = s := rfl
      rw [hs', ih (fun x hx => hk x (by simp [hx])) m (by simp at hn; omega)]
      simp [multiReply, execLine]
  refine hloop _ ?_
  have : ks.length ≤ (ks.flatMap (fun key => b!"mg " ++ key ++ b!" v f k c t\r\n")).length := by
    clear hloop hk
    induction ks with
    | nil => simp
    | cons k ks ih => simp only [List.flatMap_cons, List.length_append, List.length_cons] at *; omega
  simp only [multiWire, List.length_append, List.length_cons]
  omega

theorem meta_parse_end (rest : Bytes) : Meta.parseGetResponse (b!"MN\r\n" ++ rest) = (.err .itemNotFound, rest) := rfl
theorem meta_parse_en (rest : Bytes) : Meta.parseGetResponse (b!"EN\r\n" ++ rest) = (.err .itemNotFound, rest) := rfl

/-- The read loop of `GetMulti` over the answers to a run of present keys. -/
theorem multiLoop_present {s : Store} (hs : GoodMetaStore s) (ks : List Bytes)
    (hk : ∀ k ∈ ks, Key k ∧ (s.find k).isSome) (acc : List Item) (n : Nat) (hn : ks.length < n)
    (tail rest : Bytes) (ht : Meta.parseGetResponse tail = (.err .itemNotFound, rest)) :
    Meta.multiLoop n acc (ks.flatMap (fun k => (exec s (.mg k [b!"v", b!"f", b!"k", b!"c", b!"t"])).1) ++ tail)
      = (.ok (acc ++ ks.filterMap fun k => (s.find k).map fun e => metaItem s.now k e), rest) := by
  induction ks generalizing acc n with
  | nil =>
    obtain ⟨m, rfl⟩ : ∃ m, n = m + 1 := ⟨n - 1, by simp at hn; omega⟩
    simp [Meta.multiLoop, ht]
  | cons k ks ih =>
    obtain ⟨m, rfl⟩ : ∃ m, n = m + 1 := ⟨n - 1, by simp at hn; omega⟩
    obtain ⟨hkk, hsome⟩ := hk k (by simp)
    obtain ⟨e, he⟩ := Option.isSome_iff_exists.1 hsome
    have hp := meta_multi_hit hs k hkk e he
      (ks.flatMap (fun k => (exec s (.mg k [b!"v", b!"f", b!"k", b!"c", b!"t"])).1) ++ tail)
    have ih' := ih (fun x hx => hk x (by simp [hx])) (acc ++ [metaItem s.now k e]) m (by simp at hn; omega)
    rw [List.flatMap_cons, List.append_assoc]
    show (match Meta.parseGetResponse _ with
      | (.ok item, r) => Meta.multiLoop m (acc ++ [item]) r
      | (.err .itemNotFound, r) => (.ok acc, r)
      | (.err e, r) => (.err e, r)
      | (.panic, r) => (.panic, r)) = _
    rw [hp]
    simp only [ih', he, List.filterMap_cons, Option.map_some, List.append_assoc, List.cons_append, List.nil_append]

theorem exec_mg_ne (s : Store) (k : Bytes) (fs : List Bytes) : 0 < (exec s (.mg k fs)).1.length := by
  simp only [exec]
  cases s.find k with
  | none => simp
  | some e => dsimp only; split <;> simp

theorem multi_fuel (s : Store) (ks : List Bytes) :
    ks.length ≤ (ks.flatMap (fun k => (exec s (.mg k [b!"v", b!"f", b!"k", b!"c", b!"t"])).1)).length := by
  induction ks with
  | nil => simp
  | cons k ks ih =>
    have := exec_mg_ne s k [b!"v", b!"f", b!"k", b!"c", b!"t"]
    simp only [List.flatMap_cons, List.length_append, List.length_cons]
    omega

theorem metaFlags_lt {i : Item} (h : GoodMetaItem i) : metaFlagsOf i < 2 ^ 31 := by
  unfold metaFlagsOf
  cases hf : i.flags with
  | none => decide
  | some f =>
    obtain ⟨h1, h2⟩ := h.flags f hf
    simp only
    rw [List.take_of_length_le (by omega)]
    exact h2

theorem flagsOf31 {i : Item} (h : GoodMetaItem i) : flagsOf i < 2 ^ 31 := by
  unfold flagsOf flagBytes
  cases hf : i.flags with
  | none => decide
  | some f =>
    obtain ⟨h1, h2⟩ := h.flags f hf
    simp only [h1, if_true]
    exact h2

theorem msOpt_T (o : MsOpts) (e : Int) (h : InRange 32 e) : msOpt o (84 :: intDec e) = some { o with exp := e } := by
  simp [msOpt, parseInt_intDec e 32 h]
theorem msOpt_C (o : MsOpts) (c : Nat) (h : c < 2 ^ 64) : msOpt o (67 :: natDec c) = some { o with cas := some c } := by
  simp [msOpt, parseUint_natDec c 64 h]
theorem msOpt_F (o : MsOpts) (c : Nat) (h : c < 2 ^ 32) : msOpt o (70 :: natDec c) = some { o with flags := c } := by
  simp [msOpt, parseUint_natDec c 32 h]

theorem metaFlags_lt32 {i : Item} (h : ∀ f, i.flags = some f → 4 ≤ f.length) : metaFlagsOf i < 2 ^ 32 := by
  unfold metaFlagsOf
  cases hf : i.flags with
  | none => decide
  | some f =>
    have := getBE_lt (f.take 4)
    have h4 : (f.take 4).length = 4 := by have := h f hf; simp; omega
    rw [h4] at this
    exact this

theorem sends_ms (i : Item) (hi : PlainItem i)
    (hfl4 : ∀ f, i.flags = some f → 4 ≤ f.length) :
    ∃ w, Meta.setWire i = .ok w ∧
      Sends w (some (.ms i.key (metaFlagsOf i) i.expiration (if 0 < i.cas then some i.cas else none) i.value)) := by
  have hw : Meta.setWire i = .ok (joinSp (msWords i) ++ crlf ++ (i.value ++ crlf)) := by
    cases hfl : i.flags with
    | none =>
      by_cases hcas : 0 < i.cas <;> simp [Meta.setWire, msWords, hfl, hcas, joinSp]
    | some f =>
      have h4 : 4 ≤ f.length := by exact hfl4 f hfl
      by_cases hcas : 0 < i.cas <;> simp [Meta.setWire, msWords, hfl, hcas, joinSp, beUint, h4]
  refine ⟨_, hw, ?_⟩
  have hp : ∀ w ∈ msWords i, Plain w := by
    unfold msWords
    intro w hw
    simp only [List.mem_append, List.mem_cons, List.not_mem_nil, or_false] at hw
    rcases hw with ((rfl | rfl | rfl | rfl) | hw) | hw
    · decide
    · exact hi.key
    · exact natDec_plain _
    · exact plain_append (by decide) (intDec_plain _)
    · split at hw
      · simp only [List.mem_singleton] at hw; subst hw
        exact plain_append (by decide) (natDec_plain _)
      · simp at hw
    · split at hw
      · simp only [List.mem_singleton] at hw; subst hw
        exact plain_append (by decide) (natDec_plain _)
      · simp at hw
  refine sends_data (msWords i) _ i.value (by simp [msWords]) hp ?_
  have hpl : ∀ k n toks, parseLine (b!"ms" :: k :: n :: toks) = (do
        let n ← parseUint n 31
        let o ← msOpts {} toks
        pure (.data n (.ms k o.flags o.exp o.cas))) := fun _ _ _ => rfl
  have e : msWords i = b!"ms" :: i.key :: natDec i.value.length ::
        ([b!"T" ++ intDec i.expiration]
          ++ (if 0 < i.cas then [b!"C" ++ natDec i.cas] else [])
          ++ (match i.flags with
              | some f => [b!"F" ++ natDec (getBE (f.take 4))]
              | none => [])) := by cases hfl : i.flags <;> simp [msWords, hfl]
  have ho : msOpts {} ([b!"T" ++ intDec i.expiration]
          ++ (if 0 < i.cas then [b!"C" ++ natDec i.cas] else [])
          ++ (match i.flags with
              | some f => [b!"F" ++ natDec (getBE (f.take 4))]
              | none => []))
        = some { exp := i.expiration, cas := if 0 < i.cas then some i.cas else none, flags := metaFlagsOf i } := by
    have hf32 : metaFlagsOf i < 2 ^ 32 := metaFlags_lt32 hfl4
    unfold metaFlagsOf at hf32 ⊢
    cases hfl : i.flags with
    | none =>
      by_cases hcas : 0 < i.cas
      · simp [hcas, msOpts, msOpt_T _ _ hi.exp, msOpt_C _ _ hi.cas]
      · simp [hcas, msOpts, msOpt_T _ _ hi.exp]
    | some f =>
      rw [hfl] at hf32
      simp only at hf32
      by_cases hcas : 0 < i.cas
      · simp [hcas, msOpts, msOpt_T _ _ hi.exp, msOpt_C _ _ hi.cas, msOpt_F _ _ hf32]
      · simp [hcas, msOpts, msOpt_T _ _ hi.exp, msOpt_F _ _ hf32]
  rw [e, hpl, parseUint_natDec _ 31 (hi.value), ho]
  rfl

/-- Each meta call (see `GoodMetaOp` for which) returns what the abstract store says, changes
the server accordingly and leaves the connection in sync. -/
theorem C52_meta_call (op : Op) (s : Store) (hs : GoodMetaStore s) (ho : GoodMetaOp s op) :
    exchange (metaCall op) s = some (metaApi s op) := by
  cases op with
  | get k =>
    have hk : Key k := ho
    have hsend := sends_mg k hk
    cases hf : s.find k with
    | none =>
      have hr : ((Meta.get k).map Out.item).rd (execLine s (some (.mg k [b!"v", b!"f", b!"c", b!"t"]))).1
          = (.err .itemNotFound, []) := by
        have : (execLine s (some (.mg k [b!"v", b!"f", b!"c", b!"t"]))).1 = b!"EN\r\n" := by
          simp [execLine, exec, hf]
        rw [this]; rfl
      rw [metaCall, exchange_of rfl hsend hr (by simp)]
      simp [metaApi, hf, execLine, exec]
    | some e =>
      have hit := meta_get_hit hs k hk e hf []
      have hr : ((Meta.get k).map Out.item).rd (execLine s (some (.mg k [b!"v", b!"f", b!"c", b!"t"]))).1
          = (.ok (.item (metaItem s.now k e)), []) := by
        rw [List.append_nil] at hit
        have h2 : (Meta.get k).rd (exec s (.mg k [b!"v", b!"f", b!"c", b!"t"])).1
            = (.ok (metaItem s.now k e), []) := by
          show (Meta.parseGetResponse >>= _) _ = _
          rw [Rd.bind_of_ok hit]; rfl
        exact map_rd Out.item (Meta.get k) _ _ _ h2
      rw [metaCall, exchange_of rfl hsend hr (by simp)]
      simp [metaApi, hf, execLine, exec]
  | getMulti ks =>
    have hks : ∀ k ∈ ks, Key k ∧ (s.find k).isSome := ho
    have ha := answer_multi s ks (fun k hk => (hks k hk).1)
    have hr : (Meta.getMulti ks).rd (multiReply s ks)
        = (.ok (ks.filterMap fun k => (s.find k).map fun e => metaItem s.now k e), []) := by
      have := multiLoop_present hs ks hks [] ((multiReply s ks).length + 1)
        (by have := multi_fuel s ks; simp only [multiReply, List.length_append]; omega)
        b!"MN\r\n" [] rfl
      rw [List.nil_append] at this
      exact this
    simp only [metaCall, exchange]
    have hw : ((Meta.getMulti ks).map Out.items).wire = .ok (multiWire ks) := rfl
    rw [hw]
    simp only
    rw [ha]
    simp only
    rw [map_rd Out.items (Meta.getMulti ks) _ _ _ hr]
    simp [Res.map, metaApi]
  | set i =>
    have hi : GoodMetaItem i := ho
    obtain ⟨w, hw, hsend⟩ := sends_ms i (plainItem hi.good) (fun f hf => by have := (hi.flags f hf).1; omega)
    rw [metaCall]
    have hmode : (match (if 0 < i.cas then some i.cas else none) with | some c => Mode.cas c | none => Mode.set)
        = if 0 < i.cas then Mode.cas i.cas else Mode.set := by
      by_cases h : 0 < i.cas <;> simp [h]
    have hx : exec s (.ms i.key (metaFlagsOf i) i.expiration (if 0 < i.cas then some i.cas else none) i.value)
      = (metaLine (s.store (if 0 < i.cas then Mode.cas i.cas else Mode.set) i.key i.value (metaFlagsOf i) i.expiration).1,
         (s.store (if 0 < i.cas then Mode.cas i.cas else Mode.set) i.key i.value (metaFlagsOf i) i.expiration).2) := by
      rw [← hmode]; rfl
    generalize hm : (if 0 < i.cas then Mode.cas i.cas else Mode.set) = m at hx
    have ht : metaApi s (.set i) = (match (s.store m i.key i.value (metaFlagsOf i) i.expiration).1 with
      | .stored => (.ok .done, (s.store m i.key i.value (metaFlagsOf i) i.expiration).2)
      | .exists_ => (.err .itemExists, (s.store m i.key i.value (metaFlagsOf i) i.expiration).2)
      | .notFound => (.err .itemNotFound, (s.store m i.key i.value (metaFlagsOf i) i.expiration).2)
      | .notStored => (.err (.msg (b!"memcached: not stored")), (s.store m i.key i.value (metaFlagsOf i) i.expiration).2)) := by
      subst hm; rfl
    rw [ht]
    have go : ∀ (st : Stored) (res : Res Unit), (s.store m i.key i.value (metaFlagsOf i) i.expiration).1 = st →
        (Meta.set i).rd (metaLine st) = (res, []) → res ≠ .err .io →
        exchange ((Meta.set i).map fun _ => Out.done) s
          = some (res.map fun _ => Out.done, (s.store m i.key i.value (metaFlagsOf i) i.expiration).2) := by
      intro st res h1 h2 h3
      have := exchange_done (c := Meta.set i) (s := s) (res := res) hw hsend (by rw [hx, h1]; exact h2) h3
      rw [this, hx]
    cases hst : (s.store m i.key i.value (metaFlagsOf i) i.expiration).1 with
    | stored => exact go _ (.ok ()) hst rfl (by simp)
    | exists_ => exact go _ (.err .itemExists) hst rfl (by simp)
    | notFound => exact go _ _ hst rfl (by simp)
    | notStored => exact go _ _ hst rfl (by simp)
  | add i =>
    have hi : GoodMetaItem i := ho
    exact C52_text_call [] (.add i) hi.good s hs.good
  | replace i =>
    have hi : GoodMetaItem i := ho
    exact C52_text_call [] (.replace i) hi.good s hs.good
  | delete k =>
    have hk : Key k := ho
    have hsend : Sends (b!"md " ++ k ++ crlf) (some (.md k)) := by
      have := sends_line [b!"md", k] (some (.md k)) (by simp)
        (by intro w hw; simp at hw; rcases hw with rfl | rfl; decide; exact keyPlain hk) rfl
      simpa [joinSp] using this
    rw [metaCall]
    simp only [metaApi]
    cases hst : (s.delete k).1 with
    | true => exact exchange_done (res := .ok ()) (c := Meta.delete k) rfl hsend (by simp only [exec, hst]; rfl) (by simp)
    | false => exact exchange_done (res := .ok ()) (c := Meta.delete k) rfl hsend (by simp only [exec, hst]; rfl) (by simp)
  | increment k d e => exact C52_text_call [] (.increment k d e) ho s hs.good
  | decrement k d e => exact C52_text_call [] (.decrement k d e) ho s hs.good
  | touch k e => exact absurd ho (by simp [GoodMetaOp])
  | flush => exact C52_text_call [] .flush trivial s hs.good

/-! ### histories -/

theorem _root_.Verif.Spec.GoodMetaStore.tick {s : Store} (h : GoodMetaStore s) (d : Nat) : GoodMetaStore (s.tick d) :=
  ⟨h.good.tick d, h.flags⟩

/-- Flags in the store stay below 2^31. -/
def SmallFlags (s : Store) : Prop := ∀ k e, s.data k = some e → e.flags < 2 ^ 31

theorem SmallFlags.write {s : Store} (h : SmallFlags s) (k : Bytes) (e : Option Entry)
    (he : ∀ x, e = some x → x.flags < 2 ^ 31) : SmallFlags (s.write k e) := by
  intro k' e' h'
  simp only [Store.write] at h'
  split at h'
  · exact he e' h'
  · exact h k' e' h'

theorem SmallFlags.put {s : Store} (h : SmallFlags s) (k v : Bytes) (f : Nat) (x : Option Nat)
    (hf : f < 2 ^ 31) : SmallFlags (s.put k v f x) :=
  h.write k _ (by rintro e ⟨⟩; exact hf)

theorem SmallFlags.store {s : Store} (h : SmallFlags s) (m : Mode) (k v : Bytes) (f : Nat) (x : Int)
    (hf : f < 2 ^ 31) : SmallFlags (s.store m k v f x).2 := by
  have hp := h.put k v f (expiryOf s.now x) hf
  unfold Store.store
  cases m <;> cases s.find k <;> simp only <;> first | exact hp | exact h | skip
  split
  · exact hp
  · exact h

theorem SmallFlags.arith {s : Store} (h : SmallFlags s) (up : Bool) (k : Bytes) (d : Nat) :
    SmallFlags (s.arith up k d).2 := by
  unfold Store.arith
  cases hf : s.find k with
  | none => exact h
  | some e =>
    dsimp only
    cases counterOf e.value with
    | none => exact h
    | some n => exact h.put _ _ _ _ (h k e (find_data hf))

theorem SmallFlags.arithApi {s : Store} (h : SmallFlags s) (up : Bool) (k : Bytes) (d : Int) :
    SmallFlags (arithApi s up k d).2 := by
  unfold Spec.arithApi
  split
  · exact h
  · exact h.arith up k _

theorem metaApi_next (op : Op) (s : Store) (hs : GoodMetaStore s) (ho : GoodMetaOp s op)
    (hc : s.nextCas + 1 < 2 ^ 63) : Next s (metaApi s op).2 ∧ SmallFlags (metaApi s op).2 := by
  have h := hs.good
  have hfl : SmallFlags s := hs.flags
  cases op with
  | get k => simp only [metaApi]; split <;> exact ⟨.refl h, hfl⟩
  | getMulti ks => exact ⟨.refl h, hfl⟩
  | set i =>
    have hi : GoodMetaItem i := ho
    have h1 := Next.store h hc (if 0 < i.cas then .cas i.cas else .set) i.key i.value (metaFlagsOf i)
      i.expiration (Nat.lt_trans (metaFlags_lt hi) (by decide)) hi.good.value hi.good.exp
    have h2 := hfl.store (if 0 < i.cas then .cas i.cas else .set) i.key i.value (metaFlagsOf i)
      i.expiration (metaFlags_lt hi)
    simp only [metaApi]
    split <;> exact ⟨h1, h2⟩
  | add i =>
    have hi : GoodMetaItem i := ho
    exact ⟨Next.store h hc .add i.key i.value (flagsOf i) i.expiration (flagsOf_lt i) hi.good.value hi.good.exp,
      hfl.store .add i.key i.value (flagsOf i) i.expiration (flagsOf31 hi)⟩
  | replace i =>
    have hi : GoodMetaItem i := ho
    exact ⟨Next.store h hc .replace i.key i.value (flagsOf i) i.expiration (flagsOf_lt i) hi.good.value hi.good.exp,
      hfl.store .replace i.key i.value (flagsOf i) i.expiration (flagsOf31 hi)⟩
  | delete k =>
    refine ⟨Next.delete h k, ?_⟩
    show SmallFlags (s.delete k).2
    unfold Store.delete
    cases s.find k
    · exact hfl
    · exact hfl.write k none (by simp)
  | increment k d _ => exact ⟨Next.arithApi h hc true k d, hfl.arithApi true k d⟩
  | decrement k d _ => exact ⟨Next.arithApi h hc false k d, hfl.arithApi false k d⟩
  | touch k e => exact absurd ho (by simp [GoodMetaOp])
  | flush => exact ⟨⟨h.flush, by simp [metaApi, Store.flush]⟩, fun k e he => by simp [metaApi, Store.flush] at he⟩

/-- C52: every history of calls over one meta connection to a memcached server, as long as
`GetMulti` asks only for present keys and `Touch` is not used. -/
theorem C52_meta_history (events : List Event) (s : Store) (hs : GoodMetaStore s)
    (ho : Along metaApi GoodMetaOp s events) (hc : s.nextCas + events.length < 2 ^ 63) :
    session metaCall s events = some (runApi metaApi s events) := by
  induction events generalizing s with
  | nil => rfl
  | cons ev rest ih =>
    obtain ⟨d, op⟩ := ev
    obtain ⟨hop, hrest⟩ := ho
    have ht := hs.tick d
    simp only [List.length_cons] at hc
    have hn := metaApi_next op (s.tick d) ht hop (by simp only [Store.tick]; omega)
    have hcall := C52_meta_call op (s.tick d) ht hop
    have hr := ih (metaApi (s.tick d) op).2 ⟨hn.1.1, hn.2⟩ hrest
      (by have := hn.1.2; simp only [Store.tick] at this ⊢; omega)
    simp only [session, hcall, hr, runApi, Option.map_some]

/-- A history that meets the hypotheses. -/
example : Along metaApi GoodMetaOp (emptyStore 1000)
    [(0, .set { key := b!"a", value := b!"7", flags := some [0, 0, 1, 0], expiration := 60 }),
     (1, .increment b!"a" 5 0), (0, .getMulti [b!"a"]), (59, .get b!"a")] := by
  refine ⟨⟨⟨by decide, by decide, by decide, by decide⟩, by rintro f ⟨⟩; decide⟩, ⟨by decide, by decide⟩, ?_,
    (by decide : Key b!"a"), trivial⟩
  intro k hk
  simp only [List.mem_singleton] at hk
  subst hk
  exact ⟨by decide, by decide +kernel⟩

example : (runApi metaApi (emptyStore 1000)
    [(0, .set { key := b!"a", value := b!"7", flags := some [0, 0, 1, 0], expiration := 60 }),
     (1, .increment b!"a" 5 0), (0, .getMulti [b!"a"]), (59, .get b!"a")]).1
    = [.ok .done, .ok (.num 12),
       .ok (.items [{ key := b!"a", value := b!"12", flags := some [0, 0, 1, 0], expiration := 59, cas := 2 }]),
       .err .itemNotFound] := by decide +kernel

/-! ### C25 -/

/-- C25: when every requested key is present, meta `GetMulti` returns them all and leaves the
connection in sync. -/
theorem C25_all_present (ks : List Bytes) (s : Store) (hs : GoodMetaStore s)
    (h : ∀ k ∈ ks, Key k ∧ (s.find k).isSome) :
    exchange (metaCall (.getMulti ks)) s
      = some (.ok (.items (ks.filterMap fun k => (s.find k).map fun e => metaItem s.now k e)), s) :=
  C52_meta_call (.getMulti ks) s hs h

/-- C25: in general the result stops at the first missing key, however many later keys are
present, and the answers to the later keys (and the final `MN`) stay in the connection. -/
theorem C25_first_missing (pre post : List Bytes) (miss : Bytes) (s : Store) (hs : GoodMetaStore s)
    (hpre : ∀ k ∈ pre, Key k ∧ (s.find k).isSome) (hm : Key miss) (hmiss : s.find miss = none)
    (hpost : ∀ k ∈ post, Key k) :
    ∃ w reply, (Meta.getMulti (pre ++ miss :: post)).wire = .ok w ∧ answer s w = some (reply, s) ∧
      (Meta.getMulti (pre ++ miss :: post)).rd reply
        = (.ok (pre.filterMap fun k => (s.find k).map fun e => metaItem s.now k e), multiReply s post) := by
  have hall : ∀ k ∈ pre ++ miss :: post, Key k := by
    intro k hk
    simp only [List.mem_append, List.mem_cons] at hk
    rcases hk with hk | rfl | hk
    · exact (hpre k hk).1
    · exact hm
    · exact hpost k hk
  refine ⟨multiWire (pre ++ miss :: post), multiReply s (pre ++ miss :: post), rfl,
    answer_multi s _ hall, ?_⟩
  have hen : (exec s (.mg miss [b!"v", b!"f", b!"k", b!"c", b!"t"])).1 = b!"EN\r\n" := by
    simp [exec, hmiss]
  have e : multiReply s (pre ++ miss :: post)
      = pre.flatMap (fun k => (exec s (.mg k [b!"v", b!"f", b!"k", b!"c", b!"t"])).1)
        ++ (b!"EN\r\n" ++ multiReply s post) := by
    rw [multiReply, List.flatMap_append, List.flatMap_cons, hen]
    simp [multiReply]
  show Meta.multiLoop _ [] _ = _
  have := multiLoop_present hs pre hpre [] ((multiReply s (pre ++ miss :: post)).length + 1)
    (by
      have := multi_fuel s pre
      rw [e, List.length_append]
      omega)
    (b!"EN\r\n" ++ multiReply s post) (multiReply s post) (meta_parse_en _)
  rw [e] at this ⊢
  simpa using this

/-- C25: so after a `GetMulti` of a missing and a present key, the next `Get` on the same
connection — of any key — returns the present key's item under the name asked for. -/
theorem C25_wrong_value (miss k other : Bytes) (s : Store) (hs : GoodMetaStore s) (e : Entry)
    (hm : Key miss) (hk : Key k) (hmiss : s.find miss = none) (hk' : s.find k = some e) (rest : Bytes) :
    ∃ w reply unread, (Meta.getMulti [miss, k]).wire = .ok w ∧ answer s w = some (reply, s) ∧
      (Meta.getMulti [miss, k]).rd reply = (.ok [], unread) ∧
      (Meta.get other).rd (unread ++ rest)
        = (.ok { metaItem s.now k e with key := other }, b!"MN\r\n" ++ rest) := by
  obtain ⟨w, reply, h1, h2, h3⟩ := C25_first_missing [] [k] miss s hs (by simp) hm hmiss (by simpa using hk)
  refine ⟨w, reply, multiReply s [k], h1, h2, by simpa using h3, ?_⟩
  have := meta_multi_hit hs k hk e hk' (b!"MN\r\n" ++ rest)
  show (Meta.parseGetResponse >>= _) _ = _
  have e : multiReply s [k] ++ rest
      = (exec s (.mg k [b!"v", b!"f", b!"k", b!"c", b!"t"])).1 ++ (b!"MN\r\n" ++ rest) := by
    simp [multiReply]
  rw [e, Rd.bind_of_ok this]
  rfl

/-- A store with one present key, as used above. -/
def oneKey : Store := (emptyStore 5).put b!"k" b!"v" 0 none

theorem oneKey_good : GoodMetaStore oneKey :=
  ⟨(emptyStore_good 5).put _ _ _ _ (by simp [emptyStore]) (by decide) (by decide) (by simp),
    SmallFlags.put (s := emptyStore 5) (fun _ _ h => by simp [emptyStore] at h) _ _ _ _ (by decide)⟩

example : oneKey.find b!"k" = some ⟨b!"v", 0, none, 1⟩ ∧ oneKey.find b!"m" = none := by decide +kernel

end Props
end Verif
