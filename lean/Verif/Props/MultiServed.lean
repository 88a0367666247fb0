import Verif.Spec.Multi
import Verif.Props.Router
import Verif.Props.AnyMeta
/-!
C64: `GetMulti` of the binary and the meta client against a server of this module, with any
handler, and against the router.
-/

namespace Verif
namespace Props
open Srv Spec Pool Cluster Proxy

/-! ### Binary -/

/-- What the server writes for the gets of a batch: the responses, and after more than one response
to the same get a reply to a no-op that nobody sent. -/
def getBytes (rs : List Response) : Bytes :=
  rs.flatMap (writeBinary1 opGet) ++ (if 1 < rs.length then writeBinary1 opNoop {} else [])

theorem write_quietGet (k : Bytes) (rs : List Response) :
    writeResponse .binary (quietGet k) rs = .ok (getBytes rs) := rfl

theorem serve_gets {σ : Type} {h : Handler σ} {keys : List Bytes} {rss : List (List Response)} {s s1 : σ}
    (hran : Ran h s (keys.map quietGet) rss s1) {more : List Request} {q : Option Protocol} {i rest : Bytes}
    (hr : ReadsAs .binary (keys.map quietGet ++ more) q i rest) (hq : q = none ∨ q = some .binary) :
    ∃ q' mid, (q' = none ∨ q' = some .binary) ∧ ReadsAs .binary more q' mid rest ∧
      (serve h q s i).out = rss.flatMap getBytes ++ (serve h q' s1 mid).out
      ∧ (serve h q s i).state = (serve h q' s1 mid).state ∧ (serve h q s i).fin = (serve h q' s1 mid).fin := by
  induction keys generalizing s rss q i with
  | nil =>
    cases hran
    exact ⟨q, i, hq, hr, rfl, rfl, rfl⟩
  | cons k ks ih =>
    cases hran with
    | cons hh hrest =>
      rename_i sm res rss'
      obtain ⟨mid, h1, h2⟩ := hr
      obtain ⟨q', m', hq', h3, h4, h5, h6⟩ := ih hrest h2 (Or.inr rfl)
      refine ⟨q', m', hq', h3, ?_, ?_, ?_⟩ <;>
      · rw [serve_eq h q s i, h1]
        dsimp only
        unfold serveStep
        rw [hh]
        dsimp only
        rw [write_quietGet]
        simp [h4, h5, h6]

/-- Reading the replies to the gets, then whatever comes. -/
theorem bin_multiLoop_prefix (rs : List Response) (h : ∀ r ∈ rs, BinResp r) (acc : List Item) (n : Nat) (tail : Bytes) :
    Bin.multiLoop (n + rs.length) acc (rs.flatMap (writeBinary1 opGet) ++ tail)
      = Bin.multiLoop n (acc ++ rs.map gotItem) tail := by
  induction rs generalizing acc with
  | nil => simp
  | cons r rs ih =>
    have hr := h r (by simp)
    rw [List.length_cons, ← Nat.add_assoc]
    rw [Bin.multiLoop]
    have e0 : (r :: rs).flatMap (writeBinary1 opGet) ++ tail
        = writeBinary1 opGet r ++ (rs.flatMap (writeBinary1 opGet) ++ tail) := by simp
    rw [e0, Rd.bind_of_ok (C40_binary_header opGet r hr _)]
    dsimp only
    rw [if_neg (by decide), if_neg (by simp), Rd.bind_of_ok (readBody_bin r _)]
    have e : (⟨opGet, r.key.length, r.flags.length, 0, 0, r.key.length + r.flags.length + r.value.length, 0, 0⟩ : Bin.ResHdr).valueStart
        = r.flags.length + r.key.length := by
      have := hr.key
      simp only [Bin.ResHdr.valueStart]
      exact Nat.mod_eq_of_lt (by omega)
    have h2 : sliceTo (r.flags ++ r.key ++ r.value) (r.flags.length : Int) = .ok r.flags := by
      have := sliceTo_append r.flags (r.key ++ r.value); simpa using this
    have h3 : sliceFrom (r.flags ++ r.key ++ r.value) (r.flags.length + r.key.length) = .ok r.value := by
      have := sliceFrom_left (r.flags ++ r.key) r.value
      simpa using this
    rw [e, slice_mid, Rd.bind_of_ok (Rd.lift_apply _ _), h3, Rd.bind_of_ok (Rd.lift_apply _ _), h2,
      Rd.bind_of_ok (Rd.lift_apply _ _), ih (fun x hx => h x (by simp [hx]))]
    simp [gotItem]

/-- The loop ends at a reply to a no-op. -/
theorem bin_multiLoop_noop (acc : List Item) (n : Nat) (rest : Bytes) :
    Bin.multiLoop (n + 1) acc (writeBinary1 opNoop {} ++ rest) = (.ok acc, rest) := by
  rw [Bin.multiLoop, Rd.bind_of_ok (C40_binary_header opNoop {} ⟨by decide, by decide, by decide⟩ rest)]
  rw [if_pos (by rfl)]
  rfl

/-- The loop fails at the end of the stream. -/
theorem bin_multiLoop_end (acc : List Item) (n : Nat) : (Bin.multiLoop (n + 1) acc []).1 = .err .io := rfl

theorem getMulti_prefix (h1 h2 : Bin.ReqHdr) (keys : List Bytes) (rs : List Response) (h : ∀ r ∈ rs, BinResp r)
    (tail : Bytes) : ∃ n, (Bin.getMulti h1 h2 keys).rd (rs.flatMap (writeBinary1 opGet) ++ tail)
      = Bin.multiLoop (n + 1) (rs.map gotItem) tail := by
  have := flatMap_binary_length opGet rs
  refine ⟨(rs.flatMap (writeBinary1 opGet) ++ tail).length - rs.length, ?_⟩
  show Bin.multiLoop ((rs.flatMap (writeBinary1 opGet) ++ tail).length + 1) [] _ = _
  have e : (rs.flatMap (writeBinary1 opGet) ++ tail).length + 1
      = ((rs.flatMap (writeBinary1 opGet) ++ tail).length - rs.length + 1) + rs.length := by
    simp only [List.length_append]; omega
  rw [e, bin_multiLoop_prefix rs h]
  simp

theorem flat_single {rss : List (List Response)} (h : ∀ rs ∈ rss, rs.length ≤ 1) :
    rss.flatMap getBytes = rss.flatten.flatMap (writeBinary1 opGet) := by
  induction rss with
  | nil => rfl
  | cons rs rss ih =>
    have h1 : ¬ 1 < rs.length := by have := h rs (by simp); omega
    simp only [List.flatMap_cons, List.flatten_cons, List.flatMap_append]
    rw [ih (fun x hx => h x (by simp [hx]))]
    simp [getBytes, h1]

/-- C64: a handler that answers each get with one response or none, and a no-op with one empty
response: `GetMulti` returns exactly the responses, in the order of the keys asked for, and the
connection stays in step. -/
theorem C64_binary {σ : Type} (h : Handler σ) (s s1 s2 : σ) (h1 h2 : Bin.ReqHdr) (keys : List Bytes)
    (hk : ∀ k ∈ keys, k.length ≤ 65535) (rss : List (List Response))
    (hran : Ran h s (keys.map quietGet) rss s1) (hone : ∀ rs ∈ rss, rs.length ≤ 1)
    (hb : ∀ rs ∈ rss, ∀ r ∈ rs, BinResp r)
    (r0 : Response) (rs0 : List Response) (hn : h s1 { opcode := opNoop } = (.ok (r0 :: rs0), s2)) (he : emptyResp r0) :
    Served h .binary s (Bin.getMulti h1 h2 keys) (.ok (rss.flatten.map gotItem)) s2 := by
  obtain ⟨w, hw, hread⟩ := C10_getMulti h1 h2 keys hk
  refine ⟨w, rss.flatten.flatMap (writeBinary1 opGet) ++ writeBinary1 opNoop {}, hw, fun q rest hq => ?_, fun later => ?_⟩
  · obtain ⟨q', mid, hq', ⟨mid', hr1, hr2⟩, e1, e2, e3⟩ := serve_gets hran (hread q hq rest) hq
    have hr2 : mid' = rest := hr2
    subst hr2
    have hs : serve h q' s1 mid = ⟨{ opcode := opNoop } :: (serve h (some .binary) s2 mid').handled,
        writeBinary1 opNoop {} ++ (serve h (some .binary) s2 mid').out, (serve h (some .binary) s2 mid').state,
        (serve h (some .binary) s2 mid').fin⟩ := by
      rw [serve_eq, hr1]
      dsimp only
      unfold serveStep
      rw [hn]
      dsimp only
      have hwr : writeResponse .binary { opcode := opNoop } (r0 :: rs0) = .ok (writeBinary1 opNoop {}) := by
        have : writeResponse .binary { opcode := opNoop } (r0 :: rs0) = onFirst (r0 :: rs0) fun r => .ok (writeBinary1 opNoop r) := by
          simp [writeResponse, writeBinary, opNoop, opGet]
        rw [this]
        obtain ⟨a, b, c, d⟩ := he
        simp [onFirst, a, writeBinary1, b, c, d]
      rw [hwr]
    rw [e1, e2, e3, hs, flat_single hone]
    exact ⟨by simp, rfl, rfl⟩
  · rw [List.append_assoc]
    obtain ⟨n, e⟩ := getMulti_prefix h1 h2 keys rss.flatten
      (by intro r hr; obtain ⟨l, hl, hrl⟩ := List.mem_flatten.1 hr; exact hb l hl r hrl) (writeBinary1 opNoop {} ++ later)
    rw [e, bin_multiLoop_noop]

/-- C64: a handler that answers some get with several responses: `GetMulti` returns the responses up
to and including that one's and nothing of the keys after it; the replies to those and to
the no-op remain in the connection, for the next call to read. -/
theorem C64_binary_several {σ : Type} (h : Handler σ) (s s1 s2 s3 : σ) (h1 h2 : Bin.ReqHdr) (pre post : List Bytes) (k : Bytes)
    (hk : ∀ x ∈ pre ++ k :: post, x.length ≤ 65535) (rss : List (List Response)) (rs : List Response) (rss' : List (List Response))
    (hpre : Ran h s (pre.map quietGet) rss s1) (hone : ∀ rs ∈ rss, rs.length ≤ 1)
    (hmany : h s1 (quietGet k) = (.ok rs, s2)) (hlen : 1 < rs.length) (hpost : Ran h s2 (post.map quietGet) rss' s3)
    (hb : ∀ l ∈ rss ++ [rs], ∀ r ∈ l, BinResp r) :
    ∃ wire reply, (Bin.getMulti h1 h2 (pre ++ k :: post)).wire = .ok wire
      ∧ (∀ q rest, q = none ∨ q = some .binary → ∃ mid,
          readRequest (some .binary) mid = (.ok (.binary, { opcode := opNoop }), rest)
          ∧ (serve h q s (wire ++ rest)).out
            = reply ++ (rss'.flatMap getBytes ++ (serve h (some .binary) s3 mid).out))
      ∧ ∀ later, (Bin.getMulti h1 h2 (pre ++ k :: post)).rd (reply ++ later)
          = (.ok ((rss.flatten ++ rs).map gotItem), later) := by
  obtain ⟨w, hw, hread⟩ := C10_getMulti h1 h2 (pre ++ k :: post) hk
  refine ⟨w, (rss.flatten ++ rs).flatMap (writeBinary1 opGet) ++ writeBinary1 opNoop {}, hw, fun q rest hq => ?_, fun later => ?_⟩
  · have hr := hread q hq rest
    rw [List.map_append, List.append_assoc] at hr
    obtain ⟨q', mid, hq', ⟨mid', hr1, hr2⟩, e1, e2, e3⟩ := serve_gets hpre hr hq
    obtain ⟨q'', mid'', hq'', ⟨m3, hr3, hr4⟩, e4, e5, e6⟩ := serve_gets hpost hr2 (Or.inr rfl)
    have hr4 : m3 = rest := hr4
    subst hr4
    have hs : (serve h q' s1 mid).out = getBytes rs ++ (serve h (some .binary) s2 mid').out := by
      rw [serve_eq, hr1]
      dsimp only
      unfold serveStep
      rw [hmany]
      rfl
    have hq3 : readRequest (some .binary) mid'' = (.ok (.binary, { opcode := opNoop }), m3)
        ∧ (serve h q'' s3 mid'').out = (serve h (some .binary) s3 mid'').out := by
      rcases hq'' with rfl | rfl
      · cases mid'' with
        | nil => cases hr3
        | cons b i =>
          rw [readRequest_none] at hr3
          have hp := readRequest_proto hr3
          rw [C37_first_byte, ← hp]
          rw [← hp] at hr3
          exact ⟨hr3, rfl⟩
      · exact ⟨hr3, rfl⟩
    refine ⟨mid'', hq3.1, ?_⟩
    rw [e1, hs, e4, hq3.2, flat_single hone]
    simp [getBytes, hlen]
  · rw [List.append_assoc]
    obtain ⟨n, e⟩ := getMulti_prefix h1 h2 (pre ++ k :: post) (rss.flatten ++ rs)
      (by
        intro r hr
        rw [List.mem_append] at hr
        rcases hr with hr | hr
        · obtain ⟨l, hl, hrl⟩ := List.mem_flatten.1 hr; exact hb l (by simp [hl]) r hrl
        · exact hb rs (by simp) r hr) (writeBinary1 opNoop {} ++ later)
    rw [e, bin_multiLoop_noop]

/-- What the router writes in answer to the gets of a batch, however far it gets: whole replies. -/
theorem router_gets {S W : Type} (E : Env S W) (r : ReplicaPool S) (keys : List Bytes)
    (hsmall : ∀ k ∈ keys, ∀ w i w', Cluster.get E r k w = (.ok i, w') →
      i.key.length < 65536 ∧ i.key.length + i.value.length < 2 ^ 32)
    (w : W) (q : Option Protocol) (i rest : Bytes)
    (hr : ReadsAs .binary (keys.map quietGet ++ [{ opcode := opNoop }]) q i rest) :
    ∃ rs : List Response, (∀ x ∈ rs, BinResp x) ∧
      (serve (serveRequest E r) q w i).out = rs.flatMap (writeBinary1 opGet) := by
  induction keys generalizing w q i with
  | nil =>
    obtain ⟨mid, h1, _⟩ := hr
    refine ⟨[], by simp, ?_⟩
    rw [serve_eq, h1]
    rfl
  | cons k ks ih =>
    obtain ⟨mid, h1, h2⟩ := hr
    rw [serve_eq, h1]
    dsimp only
    unfold serveStep
    rw [serveRequest_get _ _ _ _ rfl]
    show ∃ rs, _ ∧ (match getAnswer (Cluster.get E r k w) with
      | (.err _, s') => _
      | (.panic, s') => _
      | (.ok res, s') => _ : Session W).out = _
    have hnext : ∀ (x : Response) (w' : W), BinResp x → ∃ rs : List Response, (∀ x ∈ rs, BinResp x) ∧
        (getBytes [x] ++ (serve (serveRequest E r) (some .binary) w' mid).out) = rs.flatMap (writeBinary1 opGet) := by
      intro x w' hx
      obtain ⟨rs, hrs, he⟩ := ih (fun k hk => hsmall k (by simp [hk])) w' (some .binary) mid h2
      exact ⟨x :: rs, by simpa using ⟨hx, hrs⟩, by simp [he, getBytes]⟩
    cases hg : Cluster.get E r k w with
    | mk x w' =>
      cases x with
      | panic => exact ⟨[], by simp, rfl⟩
      | ok it =>
        obtain ⟨hs1, hs2⟩ := hsmall k (by simp) w it w' hg
        exact hnext { key := it.key, value := it.value } w'
          ⟨by show 0 < 256; decide, by show 0 + it.key.length < 65536; omega,
           by show it.key.length + 0 + it.value.length < 2 ^ 32; omega⟩
      | err e =>
        by_cases hm : isMemcachedError e = true
        · have : getAnswer ((.err e, w') : Res Item × W) = (.ok [{ error := some e }], w') := by
            simp [getAnswer, failed, hm]
          rw [this]
          exact hnext { error := some e } w' ⟨by show 0 < 256; decide, by show 0 + 0 < 65536; decide, by show 0 + 0 + 0 < 2 ^ 32; decide⟩
        · have : getAnswer ((.err e, w') : Res Item × W) = (.err e, w') := by
            simp [getAnswer, failed, hm]
          rw [this]
          exact ⟨[], by simp, rfl⟩

/-- C64: a binary client's `GetMulti` through the router never succeeds, whatever the keys, the
memcached servers and what they hold: the router has no answer to the no-op that ends the batch (or
fails before it gets there), and the client's call ends with the connection's end. -/
theorem C64_router_binary {S W : Type} (E : Env S W) (r : ReplicaPool S) (w : W) (h1 h2 : Bin.ReqHdr)
    (keys : List Bytes) (hk : ∀ k ∈ keys, k.length ≤ 65535)
    (hsmall : ∀ k ∈ keys, ∀ w i w', Cluster.get E r k w = (.ok i, w') →
      i.key.length < 65536 ∧ i.key.length + i.value.length < 2 ^ 32) :
    ∃ wire, (Bin.getMulti h1 h2 keys).wire = .ok wire ∧ ∀ q rest, q = none ∨ q = some .binary →
      ((Bin.getMulti h1 h2 keys).rd (serve (serveRequest E r) q w (wire ++ rest)).out).1 = .err .io := by
  obtain ⟨wire, hw, hread⟩ := C10_getMulti h1 h2 keys hk
  refine ⟨wire, hw, fun q rest hq => ?_⟩
  obtain ⟨rs, hrs, he⟩ := router_gets E r keys hsmall w q _ rest (hread q hq rest)
  rw [he]
  obtain ⟨n, e⟩ := getMulti_prefix h1 h2 keys rs hrs []
  rw [List.append_nil] at e
  rw [e]
  exact bin_multiLoop_end _ _

/-- C64: when all lookups are carried out, the router has looked up every key by then, in order. -/
theorem C64_router_binary_cut {S W : Type} (E : Env S W) (r : ReplicaPool S) (w w1 : W) (h1 h2 : Bin.ReqHdr)
    (keys : List Bytes) (hk : ∀ k ∈ keys, k.length ≤ 65535) (rss : List (List Response))
    (hran : Ran (serveRequest E r) w (keys.map quietGet) rss w1)
    (hsmall : ∀ k ∈ keys, ∀ w i w', Cluster.get E r k w = (.ok i, w') →
      i.key.length < 65536 ∧ i.key.length + i.value.length < 2 ^ 32) :
    CutOff (serveRequest E r) .binary w (Bin.getMulti h1 h2 keys) (.err .io) w1 := by
  obtain ⟨wire, hw, hio⟩ := C64_router_binary E r w h1 h2 keys hk hsmall
  obtain ⟨wire', hw', hread⟩ := C10_getMulti h1 h2 keys hk
  have : wire' = wire := by
    rw [hw] at hw'
    exact (Res.ok.inj hw').symm
  subst this
  have hcut : ∀ q rest, q = none ∨ q = some Protocol.binary →
      (serve (serveRequest E r) q w (wire' ++ rest)).out = rss.flatMap getBytes
      ∧ (serve (serveRequest E r) q w (wire' ++ rest)).state = w1
      ∧ (serve (serveRequest E r) q w (wire' ++ rest)).fin = .closed := by
    intro q rest hq
    obtain ⟨q', mid, hq', ⟨mid', hr1, hr2⟩, e1, e2, e3⟩ := serve_gets hran (hread q hq rest) hq
    have hs : serve (serveRequest E r) q' w1 mid = ⟨[{ opcode := opNoop }], [], w1, .closed⟩ := by
      rw [serve_eq, hr1]
      rfl
    rw [e1, e2, e3, hs]
    exact ⟨by simp, rfl, rfl⟩
  refine ⟨wire', rss.flatMap getBytes, hw, hcut, ?_⟩
  have h0 := hcut none [] (Or.inl rfl)
  rw [← h0.1]
  exact hio none [] (Or.inl rfl)

/-! ### Meta -/

/-- The line `GetMulti` sends for a key arrives as a meta get that asks for the value only. -/
theorem multi_line (k : Bytes) (hk : Plain k) (q : Option Protocol) (hq : q = none ∨ q = some .ascii) (rest : Bytes) :
    readRequest q (b!"mg " ++ k ++ b!" v f k c t\r\n" ++ rest) = (.ok (.ascii, metaGetReq k), rest) := by
  have h := readAscii_words [b!"mg", k, b!"v", b!"f", b!"k", b!"c", b!"t"] rest (by simp) (by
    simp only [List.forall_mem_cons]
    exact ⟨by decide, hk, by decide, by decide, by decide, by decide, by decide, by simp⟩)
  have e : b!"mg " ++ k ++ b!" v f k c t\r\n" ++ rest
      = 109 :: (103 :: 32 :: (k ++ b!" v f k c t\r\n" ++ rest)) := by simp
  rw [e]
  refine readRequest_ascii _ _ (by decide) q hq ?_
  have e' : joinSp [b!"mg", k, b!"v", b!"f", b!"k", b!"c", b!"t"] ++ 13 :: 10 :: rest
      = 109 :: (103 :: 32 :: (k ++ b!" v f k c t\r\n" ++ rest)) := by simp [joinSp]
  rw [← e', h]
  rfl

/-- A response a meta client can read from this server. -/
def MetaResp (r : Response) : Prop := (r.flags = [] ∨ 4 ≤ r.flags.length) ∧ r.value.length < 2 ^ 31

/-- The reply to a meta get for the value only. -/
def vaReply (r : Response) : Bytes := b!"VA " ++ (natDec r.value.length ++ b!" v\r") ++ [10] ++ r.value ++ crlf

theorem write_va (k : Bytes) (r : Response) (h : MetaResp r) :
    writeResponse .ascii (metaGetReq k) [r] = .ok (vaReply r) := by
  have := C63_mg_reply k b!"v" { metaCmd := true, requestFlag := b!"v", value := true }
    (by constructor <;> simp [Has]) r h.1
  refine this.trans ?_
  simp [vaLine, vaReply, mgField, Has, crlf]

theorem read_va (r : Response) (h : MetaResp r) (rest : Bytes) :
    Meta.parseGetResponse (vaReply r ++ rest) = (.ok { value := r.value }, rest) := by
  have hl := natDec_length64 r.value.length (Nat.lt_trans h.2 (by decide))
  have := Meta.parseGetResponse_va (natDec r.value.length ++ b!" v\r") r.value rest {}
    (by simp [natDec_no10]) (by simp; omega) (va_alloc h.2)
    (by simpa using Meta.hdrScan_v r.value.length h.2)
  exact this

/-- Serving the lines of a batch whose gets are all answered with one response. -/
theorem serve_lines {σ : Type} {h : Handler σ} {keys : List Bytes} (hk : ∀ k ∈ keys, Plain k) {rs : List Response}
    {s s1 : σ} (hran : Ran h s (keys.map metaGetReq) (rs.map fun r => [r]) s1) (hb : ∀ r ∈ rs, MetaResp r)
    (q : Option Protocol) (hq : q = none ∨ q = some .ascii) (tail : Bytes) :
    ∃ q', (q' = none ∨ q' = some .ascii) ∧
      (serve h q s (keys.flatMap (fun key => b!"mg " ++ key ++ b!" v f k c t\r\n") ++ tail)).out
        = rs.flatMap vaReply ++ (serve h q' s1 tail).out
      ∧ (serve h q s (keys.flatMap (fun key => b!"mg " ++ key ++ b!" v f k c t\r\n") ++ tail)).state
        = (serve h q' s1 tail).state
      ∧ (serve h q s (keys.flatMap (fun key => b!"mg " ++ key ++ b!" v f k c t\r\n") ++ tail)).fin
        = (serve h q' s1 tail).fin := by
  induction keys generalizing s rs q with
  | nil =>
    cases rs with
    | nil => cases hran; exact ⟨q, hq, by simp, by simp, by simp⟩
    | cons r rs => cases hran
  | cons k ks ih =>
    cases rs with
    | nil => cases hran
    | cons r rs =>
      cases hran with
      | cons hh hrest =>
        rename_i sm
        obtain ⟨q', hq', e1, e2, e3⟩ := ih (fun x hx => hk x (by simp [hx])) hrest (fun x hx => hb x (by simp [hx]))
          (some .ascii) (Or.inr rfl)
        have hl := multi_line k (hk k (by simp)) q hq
          (ks.flatMap (fun key => b!"mg " ++ key ++ b!" v f k c t\r\n") ++ tail)
        have e : (k :: ks).flatMap (fun key => b!"mg " ++ key ++ b!" v f k c t\r\n") ++ tail
            = b!"mg " ++ k ++ b!" v f k c t\r\n" ++ (ks.flatMap (fun key => b!"mg " ++ key ++ b!" v f k c t\r\n") ++ tail) := by
          simp
        refine ⟨q', hq', ?_, ?_, ?_⟩ <;> rw [e, serve_eq, hl] <;> dsimp only <;> unfold serveStep <;> rw [hh] <;>
          dsimp only <;> rw [write_va k r (hb r (by simp))] <;> dsimp only
        · rw [e1, List.flatMap_cons, List.append_assoc]
        · rw [e2]
        · rw [e3]

theorem meta_multiLoop_prefix (rs : List Response) (h : ∀ r ∈ rs, MetaResp r) (acc : List Item) (n : Nat) (tail : Bytes) :
    Meta.multiLoop (n + rs.length) acc (rs.flatMap vaReply ++ tail)
      = Meta.multiLoop n (acc ++ rs.map fun r => { value := r.value }) tail := by
  induction rs generalizing acc with
  | nil => simp
  | cons r rs ih =>
    rw [List.length_cons, ← Nat.add_assoc, Meta.multiLoop]
    dsimp only
    rw [List.flatMap_cons, List.append_assoc, read_va r (h r (by simp))]
    dsimp only
    rw [ih (fun x hx => h x (by simp [hx]))]
    simp

theorem vaReplies_length (rs : List Response) : rs.length ≤ (rs.flatMap vaReply).length := by
  induction rs with
  | nil => simp
  | cons r rs ih =>
    simp only [List.flatMap_cons, List.length_append, List.length_cons]
    have : 1 ≤ (vaReply r).length := by simp [vaReply]
    omega

theorem metaMulti_prefix (keys : List Bytes) (rs : List Response) (h : ∀ r ∈ rs, MetaResp r)
    (tail : Bytes) : ∃ n, (Meta.getMulti keys).rd (rs.flatMap vaReply ++ tail)
      = Meta.multiLoop (n + 1) (rs.map fun r => { value := r.value }) tail := by
  have := vaReplies_length rs
  refine ⟨(rs.flatMap vaReply ++ tail).length - rs.length, ?_⟩
  show Meta.multiLoop ((rs.flatMap vaReply ++ tail).length + 1) [] _ = _
  have e : (rs.flatMap vaReply ++ tail).length + 1
      = ((rs.flatMap vaReply ++ tail).length - rs.length + 1) + rs.length := by
    simp only [List.length_append]; omega
  rw [e, meta_multiLoop_prefix rs h]
  simp

/-- C64: a meta client's `GetMulti` of keys that are all there fails: the server answers every get,
does not know the `mn` that ends the batch and closes the connection, and the client waits for
a reply that does not come. -/
theorem C64_meta_all {σ : Type} (h : Handler σ) (s s1 : σ) (keys : List Bytes) (hk : ∀ k ∈ keys, Plain k)
    (rs : List Response) (hran : Ran h s (keys.map metaGetReq) (rs.map fun r => [r]) s1) (hb : ∀ r ∈ rs, MetaResp r) :
    CutOff h .ascii s (Meta.getMulti keys) (.err .io) s1 := by
  refine ⟨_, rs.flatMap vaReply, rfl, fun q rest hq => ?_, ?_⟩
  · rw [List.append_assoc]
    obtain ⟨q', hq', e1, e2, e3⟩ := serve_lines hk hran hb q hq (b!"mn\r\n" ++ rest)
    have hs : serve h q' s1 (b!"mn\r\n" ++ rest) = ⟨[], [], s1, .closed⟩ := by
      have : serve h q' s1 (b!"mn\r\n" ++ rest) = serve h (some .ascii) s1 (b!"mn\r\n" ++ rest) := by
        rcases hq' with rfl | rfl
        · exact C37_first_byte h s1 109 _
        · rfl
      rw [this, serve_eq, C12_getMulti_noop_rejected]
    rw [e1, e2, e3, hs]
    exact ⟨by simp, rfl, rfl⟩
  · obtain ⟨n, e⟩ := metaMulti_prefix keys rs hb []
    rw [List.append_nil] at e
    rw [e]
    rfl

/-- C64: a meta client's `GetMulti` succeeds only because of a key that is not there: it returns the
values found before the first miss, without their keys, and leaves the rest in the
connection. -/
theorem C64_meta_miss {σ : Type} (h : Handler σ) (s s1 s2 : σ) (pre post : List Bytes) (k : Bytes)
    (hk : ∀ x ∈ pre ++ [k], Plain x)
    (rs : List Response) (hran : Ran h s (pre.map metaGetReq) (rs.map fun r => [r]) s1) (hb : ∀ r ∈ rs, MetaResp r)
    (hmiss : h s1 (metaGetReq k) = (.ok [], s2)) :
    ∃ wire reply, (Meta.getMulti (pre ++ k :: post)).wire = .ok wire
      ∧ (∀ q rest, q = none ∨ q = some .ascii → reply <+: (serve h q s (wire ++ rest)).out)
      ∧ ∀ later, (Meta.getMulti (pre ++ k :: post)).rd (reply ++ later)
          = (.ok (rs.map fun r => { value := r.value }), later) := by
  refine ⟨_, rs.flatMap vaReply ++ b!"EN\r\n", rfl, fun q rest hq => ?_, fun later => ?_⟩
  · have e : ((pre ++ k :: post).flatMap (fun key => b!"mg " ++ key ++ b!" v f k c t\r\n") ++ b!"mn\r\n") ++ rest
        = pre.flatMap (fun key => b!"mg " ++ key ++ b!" v f k c t\r\n") ++ (b!"mg " ++ k ++ b!" v f k c t\r\n"
          ++ (post.flatMap (fun key => b!"mg " ++ key ++ b!" v f k c t\r\n") ++ b!"mn\r\n" ++ rest)) := by simp
    obtain ⟨q', hq', e1, _, _⟩ := serve_lines (fun x hx => hk x (by simp [hx])) hran hb q hq
      (b!"mg " ++ k ++ b!" v f k c t\r\n"
        ++ (post.flatMap (fun key => b!"mg " ++ key ++ b!" v f k c t\r\n") ++ b!"mn\r\n" ++ rest))
    rw [e, e1, serve_eq, multi_line k (hk k (by simp)) q' hq']
    dsimp only
    unfold serveStep
    rw [hmiss]
    dsimp only
    rw [show writeResponse .ascii (metaGetReq k) [] = .ok b!"EN\r\n" from rfl]
    dsimp only
    rw [← List.append_assoc]
    exact List.prefix_append _ _
  · rw [List.append_assoc]
    obtain ⟨n, e⟩ := metaMulti_prefix (pre ++ k :: post) rs hb (b!"EN\r\n" ++ later)
    rw [e]
    rfl

/-- What the router writes in answer to the lines of a batch, however far it gets: whole replies. -/
theorem router_lines {S W : Type} (E : Env S W) (r : ReplicaPool S) (keys : List Bytes) (hk : ∀ k ∈ keys, Plain k)
    (hsmall : ∀ k ∈ keys, ∀ w i w', Cluster.get E r k w = (.ok i, w') → i.value.length < 2 ^ 31)
    (w : W) (q : Option Protocol) (hq : q = none ∨ q = some .ascii) (rest : Bytes) :
    ∃ rs : List Response, (∀ x ∈ rs, MetaResp x) ∧
      (serve (serveRequest E r) q w (keys.flatMap (fun key => b!"mg " ++ key ++ b!" v f k c t\r\n")
        ++ (b!"mn\r\n" ++ rest))).out = rs.flatMap vaReply := by
  induction keys generalizing w q with
  | nil =>
    refine ⟨[], by simp, ?_⟩
    have : serve (serveRequest E r) q w (b!"mn\r\n" ++ rest) = serve (serveRequest E r) (some .ascii) w (b!"mn\r\n" ++ rest) := by
      rcases hq with rfl | rfl
      · exact C37_first_byte _ w 109 _
      · rfl
    rw [List.flatMap_nil, List.nil_append, this, serve_eq, C12_getMulti_noop_rejected]
    rfl
  | cons k ks ih =>
    have e : (k :: ks).flatMap (fun key => b!"mg " ++ key ++ b!" v f k c t\r\n") ++ (b!"mn\r\n" ++ rest)
        = b!"mg " ++ k ++ b!" v f k c t\r\n" ++ (ks.flatMap (fun key => b!"mg " ++ key ++ b!" v f k c t\r\n") ++ (b!"mn\r\n" ++ rest)) := by
      simp
    rw [e, serve_eq, multi_line k (hk k (by simp)) q hq]
    dsimp only
    unfold serveStep
    rw [serveRequest_get _ _ _ _ rfl]
    show ∃ rs, _ ∧ (match getAnswer (Cluster.get E r k w) with
      | (.err _, s') => _
      | (.panic, s') => _
      | (.ok res, s') => _ : Session W).out = _
    have hnext : ∀ (x : Response) (w' : W) , MetaResp x → ∃ rs : List Response, (∀ x ∈ rs, MetaResp x) ∧
        (match writeResponse .ascii (metaGetReq k) [x] with
          | .err _ => (⟨[metaGetReq k], [], w', .closed⟩ : Session W)
          | .panic => ⟨[metaGetReq k], [], w', .crashed⟩
          | .ok b => ⟨metaGetReq k :: (serve (serveRequest E r) (some .ascii) w' (ks.flatMap (fun key => b!"mg " ++ key ++ b!" v f k c t\r\n") ++ (b!"mn\r\n" ++ rest))).handled,
              b ++ (serve (serveRequest E r) (some .ascii) w' (ks.flatMap (fun key => b!"mg " ++ key ++ b!" v f k c t\r\n") ++ (b!"mn\r\n" ++ rest))).out,
              (serve (serveRequest E r) (some .ascii) w' (ks.flatMap (fun key => b!"mg " ++ key ++ b!" v f k c t\r\n") ++ (b!"mn\r\n" ++ rest))).state,
              (serve (serveRequest E r) (some .ascii) w' (ks.flatMap (fun key => b!"mg " ++ key ++ b!" v f k c t\r\n") ++ (b!"mn\r\n" ++ rest))).fin⟩).out
          = rs.flatMap vaReply := by
      intro x w' hx
      obtain ⟨rs, hrs, he⟩ := ih (fun k h => hk k (by simp [h])) (fun k hk => hsmall k (by simp [hk])) w' (some .ascii) (Or.inr rfl)
      refine ⟨x :: rs, by simpa using ⟨hx, hrs⟩, ?_⟩
      rw [write_va k x hx]
      simp only [he, List.flatMap_cons]
    cases hg : Cluster.get E r k w with
    | mk x w' =>
      cases x with
      | panic => exact ⟨[], by simp, rfl⟩
      | ok it => exact hnext { key := it.key, value := it.value } w' ⟨Or.inl rfl, hsmall k (by simp) w it w' hg⟩
      | err e =>
        by_cases hm : isMemcachedError e = true
        · have : getAnswer ((.err e, w') : Res Item × W) = (.ok [{ error := some e }], w') := by
            simp [getAnswer, failed, hm]
          rw [this]
          exact hnext { error := some e } w' ⟨Or.inl rfl, by show 0 < 2 ^ 31; decide⟩
        · have : getAnswer ((.err e, w') : Res Item × W) = (.err e, w') := by
            simp [getAnswer, failed, hm]
          rw [this]
          exact ⟨[], by simp, rfl⟩

/-- C64: a meta client's `GetMulti` through the router never succeeds either: the router answers misses
with an empty value (C48), so there is no `EN` to end the call early, and it closes the
connection at the `mn`. -/
theorem C64_router_meta {S W : Type} (E : Env S W) (r : ReplicaPool S) (w : W)
    (keys : List Bytes) (hk : ∀ k ∈ keys, Plain k)
    (hsmall : ∀ k ∈ keys, ∀ w i w', Cluster.get E r k w = (.ok i, w') → i.value.length < 2 ^ 31) :
    ∃ wire, (Meta.getMulti keys).wire = .ok wire ∧ ∀ q rest, q = none ∨ q = some .ascii →
      ((Meta.getMulti keys).rd (serve (serveRequest E r) q w (wire ++ rest)).out).1 = .err .io := by
  refine ⟨_, rfl, fun q rest hq => ?_⟩
  rw [List.append_assoc]
  obtain ⟨rs, hrs, he⟩ := router_lines E r keys hk hsmall w q hq rest
  rw [he]
  obtain ⟨n, e⟩ := metaMulti_prefix keys rs hrs []
  rw [List.append_nil] at e
  rw [e]
  rfl

/-! ### The hypotheses are met -/

/-- A handler that has the keys of length 1, has several answers for those of length 3, and answers
no-ops. -/
def multiDemo : Handler Nat := fun n req =>
  (.ok (if req.opcode = opGet then
      (if req.key.length = 1 then [{ key := req.key, value := b!"v" }]
       else if req.key.length = 3 then [{ key := req.key, value := b!"1" }, { key := req.key, value := b!"2" }] else [])
    else [{}]), n + 1)

theorem C64_binary_concrete :
    Served multiDemo .binary 0 (Bin.getMulti {} {} [b!"a", b!"no", b!"b"])
      (.ok [{ key := b!"a", value := b!"v", flags := some [] }, { key := b!"b", value := b!"v", flags := some [] }]) 4 :=
  C64_binary multiDemo 0 3 4 {} {} _ (by decide)
    [[{ key := b!"a", value := b!"v" }], [], [{ key := b!"b", value := b!"v" }]]
    (.cons rfl (.cons rfl (.cons rfl (.nil _)))) (by decide)
    (by
      intro rs hrs x hx
      simp only [List.mem_cons, List.not_mem_nil, or_false] at hrs
      rcases hrs with rfl | rfl | rfl
      · simp only [List.mem_singleton] at hx; subst hx; exact ⟨by decide, by decide, by decide⟩
      · simp at hx
      · simp only [List.mem_singleton] at hx; subst hx; exact ⟨by decide, by decide, by decide⟩)
    {} [] rfl ⟨rfl, rfl, rfl, rfl⟩

/-- The key "a" is there but not returned, because "two" before it has two answers. -/
theorem C64_several_concrete : ∃ wire reply, (Bin.getMulti {} {} ([b!"b"] ++ b!"two" :: [b!"a"])).wire = .ok wire
    ∧ (∀ q rest, q = none ∨ q = some .binary → ∃ mid,
        readRequest (some .binary) mid = (.ok (.binary, { opcode := opNoop }), rest)
        ∧ (serve multiDemo q 0 (wire ++ rest)).out = reply ++ ([[{ key := b!"a", value := b!"v" }]].flatMap getBytes
          ++ (serve multiDemo (some .binary) 3 mid).out))
    ∧ ∀ later, (Bin.getMulti {} {} ([b!"b"] ++ b!"two" :: [b!"a"])).rd (reply ++ later)
        = (.ok [{ key := b!"b", value := b!"v", flags := some [] }, { key := b!"two", value := b!"1", flags := some [] },
            { key := b!"two", value := b!"2", flags := some [] }], later) :=
  C64_binary_several multiDemo 0 1 2 3 {} {} [b!"b"] [b!"a"] b!"two" (by decide) [[{ key := b!"b", value := b!"v" }]]
    [{ key := b!"two", value := b!"1" }, { key := b!"two", value := b!"2" }] [[{ key := b!"a", value := b!"v" }]]
    (.cons rfl (.nil _)) (by decide) rfl (by decide) (.cons rfl (.nil _))
    (by
      intro rs hrs x hx
      simp only [List.cons_append, List.nil_append, List.mem_cons, List.not_mem_nil, or_false] at hrs
      rcases hrs with rfl | rfl
      · simp only [List.mem_singleton] at hx; subst hx; exact ⟨by decide, by decide, by decide⟩
      · simp only [List.mem_cons, List.not_mem_nil, or_false] at hx
        rcases hx with rfl | rfl <;> exact ⟨by decide, by decide, by decide⟩)

/-- All keys there: an error.  One missing: a success. -/
theorem C64_meta_concrete :
    CutOff multiDemo .ascii 0 (Meta.getMulti [b!"a", b!"b"]) (.err .io) 2
    ∧ ∃ wire reply, (Meta.getMulti ([b!"a"] ++ b!"no" :: [b!"b"])).wire = .ok wire
      ∧ (∀ q rest, q = none ∨ q = some .ascii → reply <+: (serve multiDemo q 0 (wire ++ rest)).out)
      ∧ ∀ later, (Meta.getMulti ([b!"a"] ++ b!"no" :: [b!"b"])).rd (reply ++ later) = (.ok [{ value := b!"v" }], later) := by
  constructor
  · refine C64_meta_all multiDemo 0 2 [b!"a", b!"b"] (by decide)
      [{ key := b!"a", value := b!"v" }, { key := b!"b", value := b!"v" }] (.cons rfl (.cons rfl (.nil _))) ?_
    intro r hr
    simp only [List.mem_cons, List.not_mem_nil, or_false] at hr
    rcases hr with rfl | rfl <;> exact ⟨Or.inl rfl, by decide⟩
  · refine C64_meta_miss multiDemo 0 1 2 [b!"a"] [b!"b"] b!"no" (by decide) [{ key := b!"a", value := b!"v" }]
      (.cons rfl (.nil _)) ?_ rfl
    intro r hr
    simp only [List.mem_singleton] at hr
    subst hr
    exact ⟨Or.inl rfl, by decide⟩

/-- The router over three memcached servers that hold every key. -/
theorem C64_router_concrete : ∃ wire, (Bin.getMulti {} {} [[]]).wire = .ok wire ∧
    ((Bin.getMulti {} {} [[]]).rd
      (serve (serveRequest (constEnv (.ok { key := b!"z", value := b!"1" })) abc) none () wire).out).1 = .err .io := by
  obtain ⟨wire, h1, h2⟩ := C64_router_binary (constEnv (.ok { key := b!"z", value := b!"1" })) abc () {} {} [[]]
    (by decide) (by
      intro k hk w i w' h
      simp only [List.mem_singleton] at hk
      subst hk
      rw [constEnv_get] at h
      cases h
      exact ⟨by decide, by decide⟩)
  refine ⟨wire, h1, ?_⟩
  have := h2 none [] (Or.inl rfl)
  rwa [List.append_nil] at this

end Props
end Verif
