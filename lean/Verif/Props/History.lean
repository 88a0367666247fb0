import Verif.Lemmas.McText
/-!
C52: a text connection to a memcached server, over whole histories.

`Mc.session` (Mc/Session.lean) runs the client's calls against the byte-level reference server
`Mc` over one connection, checking after every call that the client consumed exactly the
server's reply; `Spec.runApi (Spec.textApi name)` (Spec/Api.lean) gives the results in terms of
the abstract key-value store only.
-/

namespace Verif
namespace Props
open Kv Spec Mc

/-! ### the store stays within memcached's limits -/

theorem _root_.Verif.Spec.GoodStore.tick {s : Store} (h : GoodStore s) (d : Nat) : GoodStore (s.tick d) where
  cas := h.cas
  entry := fun k e he => by
    obtain ⟨h1, h2, h3, h4⟩ := h.entry k e he
    exact ⟨h1, h2, h3, fun x hx => by have := h4 x hx; simp only [Store.tick]; omega⟩

theorem _root_.Verif.Spec.GoodStore.clear {s : Store} (h : GoodStore s) (k : Bytes) : GoodStore (s.write k none) where
  cas := h.cas
  entry := fun k' e he => by
    simp only [Store.write] at he
    split at he
    · cases he
    · exact h.entry k' e he

theorem _root_.Verif.Spec.GoodStore.flush {s : Store} (h : GoodStore s) : GoodStore s.flush where
  cas := h.cas
  entry := fun _ _ he => by simp [Store.flush] at he

theorem expiryOf_lt {now : Nat} {exp : Int} (h : InRange 32 exp) (x : Nat)
    (hx : expiryOf now exp = some x) : x < now + 2 ^ 31 := by
  have h2 := h.2
  have hm : maxDelta = 2592000 := rfl
  unfold expiryOf at hx
  split at hx
  · cases hx
  · split at hx
    · simp only [Option.some.injEq] at hx; omega
    · split at hx
      · simp only [Option.some.injEq] at hx; omega
      · simp only [Option.some.injEq] at hx
        omega

theorem _root_.Verif.Spec.GoodStore.put {s : Store} (h : GoodStore s) (k value : Bytes) (flags : Nat)
    (expiry : Option Nat) (hc : s.nextCas + 1 < 2 ^ 63) (hf : flags < 2 ^ 32)
    (hv : value.length ≤ maxValue) (hx : ∀ x, expiry = some x → x < s.now + 2 ^ 31) :
    GoodStore (s.put k value flags expiry) where
  cas := hc
  entry := fun k' e he => by
    simp only [Store.put, Store.write] at he ⊢
    split at he
    · simp only [Option.some.injEq] at he
      subst he
      exact ⟨hf, by simp, hv, hx⟩
    · obtain ⟨h1, h2, h3, h4⟩ := h.entry k' e he
      exact ⟨h1, by omega, h3, h4⟩

/-- An operation uses at most one cas token. -/
def Next (s s' : Store) : Prop := GoodStore s' ∧ s'.nextCas ≤ s.nextCas + 1

theorem Next.refl {s : Store} (h : GoodStore s) : Next s s := ⟨h, by omega⟩

theorem Next.store {s : Store} (h : GoodStore s) (hc : s.nextCas + 1 < 2 ^ 63) (m : Mode)
    (k v : Bytes) (flags : Nat) (exp : Int) (hf : flags < 2 ^ 32) (hv : v.length ≤ maxValue)
    (he : InRange 32 exp) : Next s (s.store m k v flags exp).2 := by
  have hp : Next s (s.put k v flags (expiryOf s.now exp)) :=
    ⟨h.put k v flags _ hc hf hv (fun x hx => expiryOf_lt he x hx), by simp [Store.put]⟩
  have hr := Next.refl h
  unfold Store.store
  cases m <;> cases hfk : s.find k <;> simp only <;> first | exact hp | exact hr | skip
  split
  · exact hp
  · exact hr

theorem Next.delete {s : Store} (h : GoodStore s) (k : Bytes) : Next s (s.delete k).2 := by
  unfold Store.delete
  cases s.find k
  · exact .refl h
  · exact ⟨h.clear k, by simp [Store.write]⟩

theorem Next.touch {s : Store} (h : GoodStore s) (k : Bytes) (exp : Int) (he : InRange 32 exp) :
    Next s (s.touch k exp).2 := by
  unfold Store.touch
  cases hf : s.find k with
  | none => exact .refl h
  | some e =>
    refine ⟨⟨h.cas, fun k' e' he' => ?_⟩, by simp [Store.write]⟩
    simp only [Store.write] at he' ⊢
    split at he'
    · simp only [Option.some.injEq] at he'
      subst he'
      obtain ⟨h1, h2, h3, h4⟩ := h.entry k e (find_data hf)
      exact ⟨h1, h2, h3, fun x hx => expiryOf_lt he x hx⟩
    · exact h.entry k' e' he'

theorem padTo_length (len : Nat) (v : Bytes) : (padTo len v).length = max len v.length := by
  simp [padTo]; omega

theorem Next.arith {s : Store} (h : GoodStore s) (hc : s.nextCas + 1 < 2 ^ 63) (up : Bool)
    (k : Bytes) (d : Nat) : Next s (s.arith up k d).2 := by
  unfold Store.arith
  cases hf : s.find k with
  | none => exact .refl h
  | some e =>
    dsimp only
    cases hn : counterOf e.value with
    | none => exact .refl h
    | some n =>
      dsimp only
      obtain ⟨h1, h2, h3, h4⟩ := h.entry k e (find_data hf)
      refine ⟨h.put _ _ _ _ hc h1 ?_ h4, by simp [Store.put]⟩
      rw [padTo_length]
      have := natDec_length64 _ (count_lt up n d (counterOf_lt hn))
      have hm : maxValue = 1048576 := rfl
      omega

theorem Next.arithApi {s : Store} (h : GoodStore s) (hc : s.nextCas + 1 < 2 ^ 63) (up : Bool)
    (k : Bytes) (d : Int) : Next s (arithApi s up k d).2 := by
  unfold Spec.arithApi
  split
  · exact .refl h
  · exact Next.arith h hc up k _

theorem textApi_next (name : Bytes) (op : Op) (s : Store) (ho : GoodOp op) (h : GoodStore s)
    (hc : s.nextCas + 1 < 2 ^ 63) : Next s (textApi name s op).2 := by
  cases op with
  | get k => simp only [textApi]; split <;> exact .refl h
  | getMulti ks => exact .refl h
  | set i =>
    have hi : GoodItem i := ho
    have := Next.store h hc (if 0 < i.cas then .cas i.cas else .set) i.key i.value (flagsOf i)
      i.expiration (flagsOf_lt i) hi.value hi.exp
    simp only [textApi]
    split <;> exact this
  | add i =>
    have hi : GoodItem i := ho
    exact Next.store h hc .add i.key i.value (flagsOf i) i.expiration (flagsOf_lt i) hi.value hi.exp
  | replace i =>
    have hi : GoodItem i := ho
    exact Next.store h hc .replace i.key i.value (flagsOf i) i.expiration (flagsOf_lt i) hi.value hi.exp
  | delete k => exact Next.delete h k
  | increment k d _ => exact Next.arithApi h hc true k d
  | decrement k d _ => exact Next.arithApi h hc false k d
  | touch k e => exact Next.touch h k e ho.2
  | flush => exact ⟨h.flush, by simp [textApi, Store.flush]⟩

/-! ### one call -/

theorem exchange_done {c : Call Unit} {w : Bytes} {l : Cmd} {s : Store} {res : Res Unit}
    (hw : c.wire = .ok w) (hs : Sends w (some l)) (hr : c.rd (exec s l).1 = (res, []))
    (hio : res ≠ .err .io) :
    exchange (c.map fun _ => Out.done) s
      = some (res.map fun _ => Out.done, (exec s l).2) := by
  refine exchange_of (by simpa [Call.map] using hw) hs (map_rd (fun _ => Out.done) c _ _ _ hr) ?_
  cases res <;> simp_all [Res.map]

/-- Each text call returns what the abstract store says, changes the server accordingly and
leaves the connection in sync. -/
theorem C52_text_call (name : Bytes) (op : Op) (ho : GoodOp op) (s : Store) (hs : GoodStore s) :
    exchange (textCall name op) s = some (textApi name s op) := by
  cases op with
  | get k =>
    have hk : Key k := ho
    have hsend : Sends (b!"gets " ++ k ++ crlf) (some (.gets [k])) := by
      have := sends_line [b!"gets", k] (some (.gets [k])) (by simp)
        (by intro w hw; simp at hw; rcases hw with rfl | rfl; decide; exact keyPlain hk) rfl
      simpa [joinSp] using this
    cases hf : s.find k with
    | none =>
      have hr : ((Text.get name k).map Out.item).rd (execLine s (some (.gets [k]))).1
          = (.err .itemNotFound, []) := by
        have : (execLine s (some (.gets [k]))).1 = b!"END\r\n" := by simp [execLine, exec, valueBlocks, hf]
        rw [this]; rfl
      rw [textCall, exchange_of rfl hsend hr (by simp)]
      simp [textApi, hf, execLine, exec]
    | some e =>
      obtain ⟨h1, h2, h3, h4⟩ := hs.entry k e (find_data hf)
      have hit := text_getReply_hit name
        { key := k, flags := e.flags, value := e.value, cas := some e.cas }
        hk.1.textKey (key_len hk) h1 (value_alloc h3)
        (by simp only [Option.some.injEq]; rintro c rfl; exact cas64 hs (find_data hf)) []
      have hr : ((Text.get name k).map Out.item).rd (execLine s (some (.gets [k]))).1
          = (.ok (.item (textItem name k e e.cas)), []) := by
        have : (execLine s (some (.gets [k]))).1
            = valueBlock { key := k, flags := e.flags, value := e.value, cas := some e.cas }
              ++ b!"END\r\n" ++ [] := by
          simp [execLine, exec, valueBlocks_eq, hf]
        rw [this, map_rd Out.item (Text.get name k) _ _ _ hit]
        rfl
      rw [textCall, exchange_of rfl hsend hr (by simp)]
      simp [textApi, hf, execLine, exec]
  | getMulti ks =>
    obtain ⟨hne, hks⟩ := ho
    have hsend : Sends (b!"gets " ++ joinSp ks ++ crlf) (some (.gets ks)) := by
      have := sends_line (b!"gets" :: ks) (some (.gets ks)) (by simp)
        (by intro w hw; simp at hw; rcases hw with rfl | hw; decide; exact keyPlain (hks w hw))
        (by simp [parseLine, hne])
      cases ks with
      | nil => exact absurd rfl hne
      | cons k ks => simpa [joinSp] using this
    have hb := C26_text_getMulti name ks
      (ks.filterMap fun k => (s.find k).map fun e =>
        ({ key := k, flags := e.flags, value := e.value, cas := some e.cas } : Block))
      (by
        intro b hb
        obtain ⟨k, hk, hb⟩ := List.mem_filterMap.1 hb
        cases hf : s.find k with
        | none => simp [hf] at hb
        | some e =>
          simp only [hf, Option.map_some, Option.some.injEq] at hb
          subst hb
          obtain ⟨h1, h2, h3, h4⟩ := hs.entry k e (find_data hf)
          exact ⟨keyPlain (hks k hk), key_len (hks k hk), h1, value_alloc h3,
            by simp only [Option.some.injEq]; rintro c rfl; exact cas64 hs (find_data hf)⟩) []
    have hr : ((Text.getMulti name ks).map Out.items).rd (execLine s (some (.gets ks))).1
        = (.ok (.items (ks.filterMap fun k => (s.find k).map fun e => textItem name k e 0)), []) := by
      have : (execLine s (some (.gets ks))).1
          = (ks.filterMap fun k => (s.find k).map fun e =>
              ({ key := k, flags := e.flags, value := e.value, cas := some e.cas } : Block)).flatMap valueBlock
            ++ b!"END\r\n" ++ [] := by
        simp [execLine, exec, valueBlocks_eq]
      rw [this, map_rd Out.items (Text.getMulti name ks) _ _ _ hb]
      simp only [List.map_filterMap, Res.map]
      congr 4
      funext k
      cases s.find k <;> rfl
    rw [textCall, exchange_of rfl hsend hr (by simp)]
    rfl
  | set i =>
    have hi : GoodItem i := ho
    have hsend := sends_set i (plainItem hi)
    rw [textCall]
    generalize hm : (if 0 < i.cas then Mode.cas i.cas else Mode.set) = m at hsend
    have hx : exec s (.store m i.key (flagsOf i) i.expiration i.value)
      = (storedLine (s.store m i.key i.value (flagsOf i) i.expiration).1,
         (s.store m i.key i.value (flagsOf i) i.expiration).2) := rfl
    have ht : textApi name s (.set i) = (match (s.store m i.key i.value (flagsOf i) i.expiration).1 with
      | .stored => (.ok .done, (s.store m i.key i.value (flagsOf i) i.expiration).2)
      | .exists_ => (.err .itemExists, (s.store m i.key i.value (flagsOf i) i.expiration).2)
      | .notFound => (.err (.msg (b!"memcached: failed set: NOT_FOUND\r\n")), (s.store m i.key i.value (flagsOf i) i.expiration).2)
      | .notStored => (.err (.msg (b!"memcached: failed set: NOT_STORED\r\n")), (s.store m i.key i.value (flagsOf i) i.expiration).2)) := by
      subst hm; rfl
    rw [ht]
    have go : ∀ (st : Stored) (res : Res Unit), (s.store m i.key i.value (flagsOf i) i.expiration).1 = st →
        (Text.set i).rd (storedLine st) = (res, []) → res ≠ .err .io →
        exchange ((Text.set i).map fun _ => Out.done) s
          = some (res.map fun _ => Out.done,
              (s.store m i.key i.value (flagsOf i) i.expiration).2) := by
      intro st res h1 h2 h3
      exact exchange_done (c := Text.set i) rfl hsend (by rw [hx, h1]; exact h2) h3
    cases hst : (s.store m i.key i.value (flagsOf i) i.expiration).1 with
    | stored => exact go _ (.ok ()) hst rfl (by simp)
    | exists_ => exact go _ (.err .itemExists) hst rfl (by simp)
    | notFound => exact go _ _ hst rfl (by simp)
    | notStored => exact go _ _ hst rfl (by simp)
  | add i =>
    have hi : GoodItem i := ho
    have hsend := sends_store b!"add" .add i (plainItem hi) (by decide) (fun _ _ _ _ => rfl)
    rw [textCall]
    simp only [textApi]
    cases hst : (s.store .add i.key i.value (flagsOf i) i.expiration).1 with
    | stored => exact exchange_done (res := .ok ()) (c := Text.add i) rfl hsend (by simp only [exec, hst]; rfl) (by simp)
    | notStored => exact exchange_done (res := .err .itemExists) (c := Text.add i) rfl hsend (by simp only [exec, hst]; rfl) (by simp)
    | exists_ => exact exchange_done (res := .err .itemExists) (c := Text.add i) rfl hsend (by simp only [exec, hst]; rfl) (by simp)
    | notFound => exact exchange_done (res := .err .itemExists) (c := Text.add i) rfl hsend (by simp only [exec, hst]; rfl) (by simp)
  | replace i =>
    have hi : GoodItem i := ho
    have hsend := sends_store b!"replace" .replace i (plainItem hi) (by decide) (fun _ _ _ _ => rfl)
    rw [textCall]
    simp only [textApi]
    cases hst : (s.store .replace i.key i.value (flagsOf i) i.expiration).1 with
    | stored => exact exchange_done (res := .ok ()) (c := Text.replace i) rfl hsend (by simp only [exec, hst]; rfl) (by simp)
    | notStored => exact exchange_done (res := .err .itemNotFound) (c := Text.replace i) rfl hsend (by simp only [exec, hst]; rfl) (by simp)
    | exists_ => exact exchange_done (res := .err .itemNotFound) (c := Text.replace i) rfl hsend (by simp only [exec, hst]; rfl) (by simp)
    | notFound => exact exchange_done (res := .err .itemNotFound) (c := Text.replace i) rfl hsend (by simp only [exec, hst]; rfl) (by simp)
  | delete k =>
    have hk : Key k := ho
    have hsend : Sends (b!"delete " ++ k ++ crlf) (some (.delete k)) := by
      have := sends_line [b!"delete", k] (some (.delete k)) (by simp)
        (by intro w hw; simp at hw; rcases hw with rfl | rfl; decide; exact keyPlain hk) rfl
      simpa [joinSp] using this
    rw [textCall]
    simp only [textApi]
    cases hst : (s.delete k).1 with
    | true => exact exchange_done (res := .ok ()) (c := Text.delete k) rfl hsend (by simp only [exec, hst]; rfl) (by simp)
    | false => exact exchange_done (res := .err .itemNotFound) (c := Text.delete k) rfl hsend (by simp only [exec, hst]; rfl) (by simp)
  | increment k d e =>
    exact arith_exchange _ b!"incr" true k d s rfl (by decide) (fun _ _ => rfl) ho.1 ho.2
  | decrement k d e =>
    exact arith_exchange _ b!"decr" false k d s rfl (by decide) (fun _ _ => rfl) ho.1 ho.2
  | touch k e =>
    obtain ⟨hk, he⟩ : Key k ∧ InRange 32 e := ho
    have hsend : Sends (b!"touch " ++ k ++ 32 :: intDec e ++ crlf) (some (.touch k e)) := by
      have := sends_line [b!"touch", k, intDec e] (some (.touch k e)) (by simp)
        (by intro w hw; simp at hw; rcases hw with rfl | rfl | rfl; decide; exact keyPlain hk; exact intDec_plain _)
        (by show (parseInt (intDec e) 32).map _ = _
            rw [parseInt_intDec e 32 he (by omega)]; rfl)
      simpa [joinSp] using this
    rw [textCall]
    simp only [textApi]
    cases hst : (s.touch k e).1 with
    | true => exact exchange_done (res := .ok ()) (c := Text.touch k e) rfl hsend (by simp only [exec, hst]; rfl) (by simp)
    | false => exact exchange_done (res := .err .itemNotFound) (c := Text.touch k e) rfl hsend (by simp only [exec, hst]; rfl) (by simp)
  | flush =>
    have hsend : Sends b!"flush_all\r\n" (some .flush) :=
      sends_line [b!"flush_all"] (some .flush) (by simp) (by decide) rfl
    exact exchange_done (res := .ok ()) (c := Text.flush) rfl hsend rfl (by simp)

/-- C52: every history of calls over one text connection to a memcached server. -/
theorem C52_text_history (name : Bytes) (events : List Event) (s : Store)
    (ho : ∀ ev ∈ events, GoodOp ev.2) (hs : GoodStore s)
    (hc : s.nextCas + events.length < 2 ^ 63) :
    session (textCall name) s events = some (runApi (textApi name) s events) := by
  induction events generalizing s with
  | nil => rfl
  | cons ev rest ih =>
    obtain ⟨d, op⟩ := ev
    have hop : GoodOp op := ho (d, op) (by simp)
    have ht := hs.tick d
    simp only [List.length_cons] at hc
    have hn := textApi_next name op (s.tick d) hop ht (by simp only [Store.tick]; omega)
    have hcall := C52_text_call name op hop (s.tick d) ht
    have hrest := ih (textApi name (s.tick d) op).2 (fun e he => ho e (by simp [he])) hn.1
      (by have := hn.2; simp only [Store.tick] at this ⊢; omega)
    simp only [session, hcall, hrest, runApi, Option.map_some]

/-- A store that is empty at time `t`. -/
def emptyStore (t : Nat) : Store := { data := fun _ => none, now := t, nextCas := 1 }

theorem emptyStore_good (t : Nat) : GoodStore (emptyStore t) :=
  ⟨by simp [emptyStore], fun _ _ h => by simp [emptyStore] at h⟩

/-- A history that meets the hypotheses: store, read with token, compare-and-swap, count,
expire. -/
example : ∀ ev ∈ ([(0, .set { key := b!"n", value := b!"41", expiration := 10 }),
    (1, .increment b!"n" 1 0), (3, .get b!"n"), (0, .set { key := b!"n", value := b!"x\r\nEND\r\n", cas := 2 }),
    (9, .getMulti [b!"n", b!"m"]), (0, .delete b!"n"), (0, .touch b!"n" 5)] : List Event), GoodOp ev.2 := by
  intro ev hev
  simp only [List.mem_cons, List.not_mem_nil, or_false] at hev
  rcases hev with rfl | rfl | rfl | rfl | rfl | rfl | rfl
  · exact ⟨by decide, by decide, by decide, by decide⟩
  · exact ⟨by decide, by decide⟩
  · exact (by decide : Key b!"n")
  · exact ⟨by decide, by decide, by decide, by decide⟩
  · exact ⟨by decide, by decide⟩
  · exact (by decide : Key b!"n")
  · exact ⟨by decide, by decide⟩

/-- What that history returns. -/
example : (runApi (textApi b!"s1") (emptyStore 1000)
    [(0, .set { key := b!"n", value := b!"41", expiration := 10 }), (1, .increment b!"n" 1 0),
     (3, .get b!"n"), (8, .get b!"n")]).1
    = [.ok .done, .ok (.num 42),
       .ok (.item { key := b!"n", value := b!"42", flags := some [0, 0, 0, 0], cas := 2, server := b!"s1" }),
       .err .itemNotFound] := by decide +kernel

end Props
end Verif
