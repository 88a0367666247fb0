import Verif.Props.FlowUse
/-!
C77 for the operations of the clients over this repository's server; examples.
-/

namespace Verif
namespace Flow
open Kv Srv Spec Props

variable {σ : Type}

theorem arrives_map {α β : Type} {p : Protocol} {c : Call α} {req : Request} (f : α → β) (h : Arrives p c req) :
    Arrives p (c.map f) req := h

theorem arrives_ask (p : Proto) (i : Issue) (fit : Fit p i.ask) (hb : ∀ op, i.ask = .op op → ¬ Batch p op) :
    ∃ req, asked p i.ask = [req] ∧ Arrives p.wire (i.call p) req := by
  obtain ⟨a, h1, h2⟩ := i
  cases p with
  | text name =>
    cases a with
    | version => exact ⟨_, rfl, arrives_map _ C11_version⟩
    | op o =>
      cases o with
      | get k => exact ⟨_, rfl, arrives_map _ (arrives_map _ (C11_get name k fit))⟩
      | getMulti ks =>
        refine ⟨_, rfl, arrives_map _ (arrives_map (c := Text.getMulti name ks) _ ?_)⟩
        by_cases hn : ks = []
        · subst hn; exact C11_getMulti_nil name
        · rw [if_neg hn]; exact C11_getMulti name ks hn fit
      | set it => exact ⟨_, rfl, arrives_map _ (arrives_map _ (C11_set it (textItem_of fit.1) fit.2))⟩
      | add it => exact ⟨_, rfl, arrives_map _ (arrives_map _ (C11_add it (textItem_of fit)))⟩
      | replace it => exact ⟨_, rfl, arrives_map _ (arrives_map _ (C11_replace it (textItem_of fit)))⟩
      | delete k => exact ⟨_, rfl, arrives_map _ (arrives_map _ (C11_delete k fit))⟩
      | increment k d e => exact ⟨_, rfl, arrives_map _ (arrives_map _ (C11_increment k d e fit.1 fit.2))⟩
      | decrement k d e => exact ⟨_, rfl, arrives_map _ (arrives_map _ (C11_decrement k d e fit.1 fit.2))⟩
      | touch k e => exact ⟨_, rfl, arrives_map _ (arrives_map _ (C11_touch k e fit.1 fit.2))⟩
      | flush => exact ⟨_, rfl, arrives_map _ (arrives_map _ C11_flush)⟩
  | metap =>
    cases a with
    | version => exact ⟨_, rfl, arrives_map _ C12_version⟩
    | op o =>
      cases o with
      | get k => exact ⟨_, rfl, arrives_map _ (arrives_map _ (C12_get k fit))⟩
      | getMulti ks => exact fit.elim
      | set it =>
        have hc : decide (it.cas ≠ 0) = decide (0 < it.cas) := by
          by_cases h0 : it.cas = 0
          · simp [h0]
          · simp [h0, Nat.pos_of_ne_zero h0]
        have hq : asked .metap (.op (.set it)) = [metaSetReq it] := by
          simp only [asked, metaSetReq, hc]
          cases it.flags <;> rfl
        exact ⟨_, hq, arrives_map _ (arrives_map _ (C12_set it (metaItem_of fit)))⟩
      | add it => exact ⟨_, rfl, arrives_map _ (arrives_map _ (C12_add it (textItem_of fit)))⟩
      | replace it => exact ⟨_, rfl, arrives_map _ (arrives_map _ (C12_replace it (textItem_of fit)))⟩
      | delete k => exact ⟨_, rfl, arrives_map _ (arrives_map _ (C12_delete k fit))⟩
      | increment k d e => exact ⟨_, rfl, arrives_map _ (arrives_map _ (C12_increment k d e fit.1 fit.2))⟩
      | decrement k d e => exact ⟨_, rfl, arrives_map _ (arrives_map _ (C12_decrement k d e fit.1 fit.2))⟩
      | touch k e => exact fit.elim
      | flush => exact ⟨_, rfl, arrives_map _ (arrives_map _ C12_flush)⟩
  | binary =>
    cases a with
    | version => exact ⟨_, rfl, arrives_map _ (C10_version h1)⟩
    | op o =>
      cases o with
      | get k => exact ⟨_, rfl, arrives_map _ (arrives_map _ (C10_get h1 k fit))⟩
      | getMulti ks => exact absurd trivial (hb _ rfl)
      | set it => exact ⟨_, rfl, arrives_map _ (arrives_map _ (C10_set h1 it (binItem_of fit)))⟩
      | add it => exact ⟨_, rfl, arrives_map _ (arrives_map _ (C10_add h1 it (binItem_of fit)))⟩
      | replace it => exact ⟨_, rfl, arrives_map _ (arrives_map _ (C10_replace h1 it (binItem_of fit)))⟩
      | delete k => exact ⟨_, rfl, arrives_map _ (arrives_map _ (C10_delete h1 k fit))⟩
      | increment k d e => exact ⟨_, rfl, arrives_map _ (arrives_map _ (C10_increment h1 k d e fit.1 fit.2))⟩
      | decrement k d e => exact ⟨_, rfl, arrives_map _ (arrives_map _ (C10_decrement h1 k d e fit.1 fit.2))⟩
      | touch k e => exact ⟨_, rfl, arrives_map _ (arrives_map _ (C10_touch h1 k e fit))⟩
      | flush => exact ⟨_, rfl, arrives_map _ (arrives_map _ (C10_flush h1))⟩

theorem server_idle (h : Handler σ) (p : Protocol) (s : σ) : (server h).next (some p, s) [] = none := by
  cases p <;> rfl

/-- An operation that sends one request, as this server handles it. -/
theorem next_issue (p : Proto) (h : Handler σ) (s s' : σ) (i : Issue) (x : Res Said)
    (hc : Converse h p s [i] [x] s') (hb : ∀ op, i.ask = .op op → ¬ Batch p op)
    (q : Option Protocol) (hq : q = none ∨ q = some p.wire) :
    ∃ w o, (i.call p).wire = .ok w ∧ (server h).next (q, s) w = some (o, (some p.wire, s'), [])
      ∧ ∀ later, (i.call p).rd (o ++ later) = (x, later) := by
  cases hc with
  | cons fit ran gives rest =>
    cases rest
    obtain ⟨req, hreq, w, hw, hread⟩ := arrives_ask p i fit hb
    obtain ⟨w', reply, hw', hserve, hrd⟩ := Props.carried p i fit ran gives
    obtain rfl : w' = w := Res.ok.inj (hw'.symm.trans hw)
    have hreads := hread
    have hread := hread q hq []
    rw [List.append_nil] at hread
    rw [hreq] at ran
    obtain ⟨res, _, hh⟩ := ran_one ran
    obtain ⟨q', hq', e⟩ := hserve q [] hq
    rw [List.append_nil] at e
    have hend : ∀ q' : Option Protocol, q' = none ∨ q' = some p.wire → serve h q' s' [] = ⟨[], [], s', .closed⟩ :=
      fun q' _ => serve_end h s' q'
    rw [hend q' hq'] at e
    have e' := e
    rw [serve_eq, hread] at e'
    simp only [serveStep, hh] at e'
    cases hwr : writeResponse p.wire req res with
    | err er =>
      -- the server would stop after the request, but it handles what comes after it
      obtain ⟨q2, hq2, e2⟩ := hserve q w' hq
      have e3 := hreads q2 hq2 []
      rw [List.append_nil] at e3
      have e4 : req ∈ (serve h q2 s' w').handled := by
        rw [serve_eq, e3]
        simp only [serveStep]
        cases h s' req with
        | mk a b =>
          cases a with
          | err _ => simp
          | panic => simp
          | ok res2 => simp only; cases writeResponse p.wire req res2 <;> simp
      rw [serve_eq, hreads q hq w'] at e2
      simp only [serveStep, hh, hwr] at e2
      have e5 : [req] = asked p i.ask ++ (serve h q2 s' w').handled := by injection e2
      rw [hreq] at e5
      have e6 := List.self_eq_append_right.1 e5
      rw [e6] at e4
      cases e4
    | panic => rw [hwr] at e'; simp at e'
    | ok b =>
      rw [hwr] at e'
      simp only [serve_end, List.append_nil] at e'
      have hbr : b = reply := by injection e'
      subst hbr
      exact ⟨w', b, hw, next_server (s := (q, s)) hread hh hwr, hrd⟩

/-- **C77 (this server).** Every operation this server understands, except a binary `GetMulti`, comes through over it,
however little the connection holds, as the first operation of a connection or a later one; the result is the one C16
gives. -/
theorem C77_server {R : Room} (hR : R.Some) (p : Proto) (h : Handler σ) (s s' : σ) (i : Issue) (x : Res Said)
    (hc : Converse h p s [i] [x] s') (hb : ∀ op, i.ask = .op op → ¬ Batch p op)
    (q : Option Protocol) (hq : q = none ∨ q = some p.wire) :
    ∃ w, (i.call p).wire = .ok w ∧ ∀ n, Reach (server h) R (start (q, s) w) n →
      (Stuck (server h) R n ↔ Through (server h) (q, s) w n)
      ∧ (Stuck (server h) R n → (i.call p).rd n.heard = (x, []) ∧ n.srv = (some p.wire, s')) := by
  obtain ⟨w, o, hw, hnext, hrd⟩ := next_issue p h s s' i x hc hb q hq
  refine ⟨w, hw, fun n hn => ?_⟩
  obtain ⟨a, c⟩ := C77_one (framed_server h) hR hnext (server_idle h _ _) hn
  refine ⟨a, fun hst => ⟨?_, (c hst).2.1⟩⟩
  have := hrd []
  rw [List.append_nil] at this
  rw [(c hst).1, this]

theorem server_replies {h : Handler σ} {ks : List Bytes} (hk : ∀ k ∈ ks, k.length ≤ 65535) {s s1 : σ}
    {rss : List (List Response)} (ran : Ran h s (ks.map quietGet) rss s1) (h1 : Bin.ReqHdr) (q : Option Protocol)
    (hq : q = none ∨ q = some .binary) (tail : Bytes) :
    ∃ q', (q' = none ∨ q' = some .binary) ∧
      Replies (server h) (q, s) ((Bin.getKQs h1 ks).1 ++ tail) (rss.flatMap getBytes) (q', s1) tail := by
  induction ks generalizing s rss h1 q with
  | nil => cases ran; exact ⟨q, hq, .done _ _⟩
  | cons k ks ih =>
    cases ran with
    | cons hh hrest =>
      obtain ⟨q', hq', hr⟩ := ih (fun x hx => hk x (by simp [hx])) hrest (Bin.getKQHdr h1 k) (some .binary) (Or.inr rfl)
      have hk1 := hk k (by simp)
      have e : (Bin.getKQs h1 (k :: ks)).1 ++ tail
          = (Bin.getKQHdr h1 k).encode ++ (k ++ ((Bin.getKQs (Bin.getKQHdr h1 k) ks).1 ++ tail)) := by
        simp [Bin.getKQs]
      have hread : readRequest q ((Bin.getKQs h1 (k :: ks)).1 ++ tail)
          = (.ok (.binary, quietGet k), (Bin.getKQs (Bin.getKQHdr h1 k) ks).1 ++ tail) := by
        rw [e, encode_raw]
        refine readRequest_raw _ _ _ _ _ _ _ q hq (binGetKQ_ok _ ?_ _ _ _ _ _ _ ?_)
        · exact Nat.mod_lt _ (by decide)
        · exact (mod16 hk1).symm
      exact ⟨q', hq', .more (next_server (s := (q, s)) hread hh (write_quietGet k _)) hr⟩

/-- **C77 (binary GetMulti over this server that does not fit).** The handler answers the requests for the first keys
`as` of a binary `GetMulti` with `rss`; if these replies do not fit into the connection and the requests for the other
keys `bs` do not either, the `GetMulti` never returns and the server never gets to the end of the batch. -/
theorem C77_server_multi {R : Room} (hR : R.Some) (h : Handler σ) (h1 h2 : Bin.ReqHdr) (as bs : List Bytes)
    (hk : ∀ k ∈ as, k.length ≤ 65535) (s s1 : σ) (rss : List (List Response))
    (ran : Ran h s (as.map quietGet) rss s1) (q : Option Protocol) (hq : q = none ∨ q = some .binary)
    (ha : R.down < (rss.flatMap getBytes).length) (hb : R.up + R.ahead ≤ 24 * bs.length + 24) :
    ∃ w, (Bin.getMulti h1 h2 (as ++ bs)).wire = .ok w ∧ ∀ n, Reach (server h) R (start (q, s) w) n →
      n.toSend ≠ [] ∧ n.heard = [] ∧ (Stuck (server h) R n ↔ Locked R n) := by
  obtain ⟨h', e⟩ := getKQs_append h1 as bs
  refine ⟨(Bin.getKQs h1 as).1 ++ ((Bin.getKQs h' bs).1 ++ (Bin.noopHdr h2).encode), ?_, fun n hn => ?_⟩
  · show Res.ok ((Bin.getKQs h1 (as ++ bs)).1 ++ (Bin.noopHdr h2).encode) = _
    rw [e]; simp
  obtain ⟨q', _, hr⟩ := server_replies hk ran h1 q hq []
  rw [List.append_nil] at hr
  have := kq_length h' bs
  refine C77_too_much (framed_server h) hR hr ha ?_ hn
  rw [List.length_append, encode_raw, rawHdr_length]
  omega

/-! ### Examples -/

/-- Buffers of 64 KiB in each direction and a reader of 4096 bytes. -/
def usual : Room := ⟨65536, 65536, 4096⟩

/-- A meta `GetMulti` of 140000 keys, none of which memcached has, never returns. -/
theorem C77_concrete_meta : ∃ w, (Mc.metaCall (.getMulti (List.replicate 140000 b!"a"))).wire = .ok w ∧
    ∀ n, Reach memcached usual (start (emptyStore 0) w) n →
      n.toSend ≠ [] ∧ n.heard = [] ∧ (Stuck memcached usual n ↔ Locked usual n) :=
  C77_meta_multi_many (R := usual) ⟨by decide, by decide, by decide⟩ _ (fun k hk => by rw [(List.mem_replicate.1 hk).2]; decide) _
    (by rw [List.length_replicate]; decide)

theorem replicate_flatMap_length (n : Nat) (a : List Response) :
    ((List.replicate n a).flatMap getBytes).length = n * (getBytes a).length := by
  induction n with
  | zero => simp
  | succ n ih => rw [List.replicate_succ, List.flatMap_cons, List.length_append, ih, Nat.succ_mul]; omega

/-- A binary `GetMulti` of 5000 keys, each of which the handler answers with five bytes, never returns over this
server. -/
theorem C77_concrete_server : ∃ w, (Bin.getMulti {} {} (List.replicate 2000 b!"a" ++ List.replicate 3000 b!"b")).wire = .ok w ∧
    ∀ n, Reach (server polite) usual (start (none, 0) w) n →
      n.toSend ≠ [] ∧ n.heard = [] ∧ (Stuck (server polite) usual n ↔ Locked usual n) := by
  refine C77_server_multi (R := usual) ⟨by decide, by decide, by decide⟩ polite {} {} _ _
    (fun k hk => by rw [(List.mem_replicate.1 hk).2]; decide) 0 _ _
    (polite_gets quietGet (fun _ => rfl) _ 0) none (Or.inl rfl) ?_ (by rw [List.length_replicate]; decide)
  rw [List.map_const', List.length_replicate, replicate_flatMap_length]
  decide

/-- A text `Get` over this server comes through on a connection that holds one byte in each direction. -/
theorem C77_concrete_get : ∃ w, ((⟨.op (.get b!"a"), {}, {}⟩ : Issue).call (.text b!"srv")).wire = .ok w ∧
    ∀ n, Reach (server polite) ⟨1, 1, 1⟩ (start (none, 0) w) n →
      (Stuck (server polite) ⟨1, 1, 1⟩ n ↔ Through (server polite) (none, 0) w n) := by
  have hc : Converse polite (.text b!"srv") 0 [⟨.op (.get b!"a"), {}, {}⟩] _ _ :=
    .cons (by show Plain _; decide) (.cons rfl (.nil _))
      (.textHit b!"srv" _ _ ⟨polite_k, by decide, by decide, by decide⟩) (.nil _)
  obtain ⟨w, hw, hn⟩ := C77_server (R := ⟨1, 1, 1⟩) ⟨by decide, by decide, by decide⟩ _ _ _ _ _ _ hc (fun op e => by cases e; exact id) none (Or.inl rfl)
  exact ⟨w, hw, fun n h => (hn n h).1⟩

end Flow
end Verif
