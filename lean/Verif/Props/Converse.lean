import Verif.Spec.Converse
import Verif.Props.MultiServed
import Verif.Props.Accept
/-!
C16 for the operations of the clients themselves.
-/

namespace Verif
namespace Props
open Srv Spec

variable {σ : Type}

/-- One operation carried out by the server: the handler sees `reqs` and is left in `s'`, the call returns `x`,
whatever comes later. -/
def Carried (h : Handler σ) (p : Protocol) (s : σ) (c : Call Said) (reqs : List Request) (x : Res Said) (s' : σ) : Prop :=
  ∃ wire reply, c.wire = .ok wire
    ∧ (∀ q rest, q = none ∨ q = some p → ∃ q', (q' = none ∨ q' = some p) ∧
        serve h q s (wire ++ rest) = ⟨reqs ++ (serve h q' s' rest).handled, reply ++ (serve h q' s' rest).out,
          (serve h q' s' rest).state, (serve h q' s' rest).fin⟩)
    ∧ ∀ later, c.rd (reply ++ later) = (x, later)

theorem carried_one {α : Type} {h : Handler σ} {p : Protocol} {s s' : σ} {c : Call α} {req : Request}
    {res : List Response} {x : Res α} (f : α → Said) (ha : Arrives p c req) (hh : h s req = (.ok res, s'))
    (hx : Answers p req res c x) : Carried h p s (c.map f) [req] (x.map f) s' := by
  obtain ⟨w, hw, hread⟩ := ha
  obtain ⟨b, hb, hrd⟩ := hx
  refine ⟨w, b, hw, fun q rest hq => ⟨some p, Or.inr rfl, ?_⟩, fun later => ?_⟩
  · rw [serve_eq, hread q hq rest]
    simp only [serveStep, hh, hb]
    rfl
  · show ((c.rd _).1.map f, (c.rd _).2) = _
    rw [hrd later]

theorem carried_two {α : Type} {h : Handler σ} {p : Protocol} {s s' : σ} {c : Call α} {req : Request}
    {res : List Response} {x : Res α} (f : α → Out) (ha : Arrives p c req) (hh : h s req = (.ok res, s'))
    (hx : Answers p req res c x) : Carried h p s ((c.map f).map Said.out) [req] ((x.map f).map Said.out) s' := by
  obtain ⟨w, b, hw, h1, h2⟩ := carried_one (fun a => Said.out (f a)) ha hh hx
  refine ⟨w, b, hw, h1, fun later => ?_⟩
  have := h2 later
  have e : ∀ y : Res α, (y.map f).map Said.out = y.map (fun a => Said.out (f a)) := by intro y; cases y <;> rfl
  show (((c.rd _).1.map f).map Said.out, (c.rd _).2) = _
  rw [e, e]
  exact this

theorem ran_one {h : Handler σ} {s s' : σ} {req : Request} {rss : List (List Response)}
    (hr : Ran h s [req] rss s') : ∃ res, rss = [res] ∧ h s req = (.ok res, s') := by
  cases hr with
  | cons hh hr => cases hr; exact ⟨_, rfl, hh⟩

theorem serve_gets_all {h : Handler σ} {keys : List Bytes} {rss : List (List Response)} {s s1 : σ}
    (hran : Ran h s (keys.map quietGet) rss s1) {more : List Request} {q : Option Protocol} {i rest : Bytes}
    (hr : ReadsAs .binary (keys.map quietGet ++ more) q i rest) (hq : q = none ∨ q = some .binary) :
    ∃ q' mid, (q' = none ∨ q' = some .binary) ∧ ReadsAs .binary more q' mid rest ∧
      serve h q s i = ⟨keys.map quietGet ++ (serve h q' s1 mid).handled, rss.flatMap getBytes ++ (serve h q' s1 mid).out,
        (serve h q' s1 mid).state, (serve h q' s1 mid).fin⟩ := by
  induction keys generalizing s rss q i with
  | nil =>
    cases hran
    exact ⟨q, i, hq, hr, rfl⟩
  | cons k ks ih =>
    cases hran with
    | cons hh hrest =>
      obtain ⟨mid, h1, h2⟩ := hr
      obtain ⟨q', m', hq', h3, h4⟩ := ih hrest h2 (Or.inr rfl)
      refine ⟨q', m', hq', h3, ?_⟩
      rw [serve_eq h q s i, h1]
      dsimp only
      unfold serveStep
      rw [hh]
      dsimp only
      rw [write_quietGet]
      simp [h4]

theorem ran_append {h : Handler σ} {a b : List Request} {s s' : σ} {rss : List (List Response)}
    (hr : Ran h s (a ++ b) rss s') : ∃ s1 r1 r2, rss = r1 ++ r2 ∧ Ran h s a r1 s1 ∧ Ran h s1 b r2 s' := by
  induction a generalizing s rss with
  | nil => exact ⟨s, [], rss, rfl, .nil s, hr⟩
  | cons x xs ih =>
    cases hr with
    | cons hh hr =>
      obtain ⟨s1, r1, r2, rfl, h1, h2⟩ := ih hr
      exact ⟨s1, _ :: r1, r2, rfl, .cons hh h1, h2⟩

theorem ran_length {h : Handler σ} {a : List Request} {s s' : σ} {rss : List (List Response)}
    (hr : Ran h s a rss s') : rss.length = a.length := by
  induction hr with
  | nil => rfl
  | cons _ _ ih => simp [ih]

theorem binResp_of {r : Response} (h : BinFound r) : BinResp r := ⟨h.1, h.2.1, h.2.2⟩

theorem textResp_of {r : Response} (h : TextHit r) : TextResp r :=
  ⟨h.1, h.2.1, h.2.2.1, le_maxAlloc' (Nat.lt_trans h.2.2.2 (by decide))⟩

theorem textItem_of {i : Item} (h : TextFit i) : TextItem i := ⟨h.1, h.2.1, h.2.2.1, h.2.2.2⟩
theorem metaItem_of {i : Item} (h : MetaFit i) : MetaItem i := ⟨h.1, h.2.1, h.2.2.1, h.2.2.2.1, h.2.2.2.2⟩
theorem binItem_of {i : Item} (h : BinFit i) : BinItem i := ⟨h.1, h.2.1, h.2.2⟩

theorem carried_multi {h : Handler σ} {s s' : σ} (h1 h2 : Bin.ReqHdr) (ks : List Bytes) (hk : ∀ k ∈ ks, k.length ≤ 65535)
    {rss : List (List Response)} {r : Response} {rs : List Response}
    (hran : Ran h s (ks.map quietGet ++ [{ opcode := opNoop }]) (rss ++ [r :: rs]) s')
    (hone : ∀ l ∈ rss, l.length ≤ 1) (hb : ∀ l ∈ rss, ∀ r ∈ l, BinFound r) (he : Bare r) (f : List Item → Out) :
    Carried h .binary s (((Bin.getMulti h1 h2 ks).map f).map Said.out) (ks.map quietGet ++ [{ opcode := opNoop }])
      (.ok (Said.out (f (rss.flatten.map gotItem)))) s' := by
  obtain ⟨s1, r1, r2, e, hr1, hr2⟩ := ran_append hran
  obtain ⟨res, rfl, hn⟩ := ran_one hr2
  have e' := List.append_inj' e rfl
  obtain ⟨rfl, e2⟩ := e'
  have e3 := (List.cons.inj e2).1
  subst e3
  clear e e2
  obtain ⟨w, hw, hread⟩ := C10_getMulti h1 h2 ks hk
  obtain ⟨w', reply, hw', _, hrd⟩ := C64_binary h s s1 s' h1 h2 ks hk rss hr1 hone
    (fun l hl r hr => binResp_of (hb l hl r hr)) r rs hn he
  have heq : w' = w := Res.ok.inj (hw'.symm.trans hw)
  subst heq
  refine ⟨w', rss.flatten.flatMap (writeBinary1 opGet) ++ writeBinary1 opNoop {}, hw, fun q rest hq => ?_, fun later => ?_⟩
  · obtain ⟨q', mid, hq', ⟨mid', hr1', hr2'⟩, e1⟩ := serve_gets_all hr1 (hread q hq rest) hq
    have hr2' : mid' = rest := hr2'
    subst hr2'
    refine ⟨some .binary, Or.inr rfl, ?_⟩
    rw [e1, serve_eq h q' s1 mid, hr1']
    simp only [serveStep, hn]
    have hwr : writeResponse .binary { opcode := opNoop } (r :: rs) = .ok (writeBinary1 opNoop {}) := by
      obtain ⟨e1, e2, e3, e4⟩ := he
      have : writeResponse .binary { opcode := opNoop } (r :: rs) = onFirst (r :: rs) fun r => .ok (writeBinary1 opNoop r) := by
        simp [writeResponse, writeBinary, opNoop, opGet]
      rw [this]
      simp [onFirst, writeBinary1, e1, e2, e3, e4]
    rw [hwr]
    simp [flat_single hone]
  · show ((((Bin.getMulti h1 h2 ks).rd _).1.map f).map Said.out, ((Bin.getMulti h1 h2 ks).rd _).2) = _
    have := C15_getMulti h1 h2 ks rss.flatten (fun r hr => by
      obtain ⟨l, hl, hr⟩ := List.mem_flatten.1 hr
      exact binResp_of (hb l hl r hr)) later
    rw [List.append_assoc, this]
    rfl

theorem carried_text {h : Handler σ} {s s' : σ} (name : Bytes) (i : Issue) (fit : Fit (.text name) i.ask)
    {rss : List (List Response)} (ran : Ran h s (asked (.text name) i.ask) rss s') {x : Res Said}
    (gives : Gives (.text name) i.ask rss x) :
    Carried h .ascii s (i.call (.text name)) (asked (.text name) i.ask) x s' := by
  obtain ⟨a, h1, h2⟩ := i
  simp only [Issue.call] at *
  cases gives with
  | textHit _ k r hr =>
    obtain ⟨res, e, hh⟩ := ran_one ran
    cases e
    exact carried_two _ (C11_get name k fit) hh (C13_get name k r (textResp_of hr))
  | textMiss _ k =>
    obtain ⟨res, e, hh⟩ := ran_one ran
    cases e
    exact carried_two _ (C11_get name k fit) hh (C13_get_miss name k)
  | textMulti _ ks rs hr =>
    obtain ⟨res, e, hh⟩ := ran_one ran
    cases e
    have ha : Arrives .ascii (Text.getMulti name ks) { opcode := opGet, keys := some (if ks = [] then [[]] else ks) } := by
      by_cases hn : ks = []
      · subst hn; exact C11_getMulti_nil name
      · rw [if_neg hn]; exact C11_getMulti name ks hn fit
    refine carried_two (x := .ok (rs.map (textGot name))) _ ha hh ?_
    obtain ⟨w, hw, hrd⟩ := C13_getMulti name ks rs (fun r hr' => textResp_of (hr r hr'))
    refine ⟨w, ?_, fun rest => by rw [hrd rest]; rfl⟩
    rw [C40_text_get _ _ _ (fun r hr' => (hr r hr').2.2.1)] at hw ⊢
    exact hw
  | done _ o ho _ r rs he =>
    obtain ⟨res, e, hh⟩ : ∃ res, [r :: rs] = [res] ∧ ∃ req, asked (.text name) (.op o) = [req] ∧ h s req = (.ok res, s') := by
      cases o <;> first | exact ho.elim | exact (by obtain ⟨res, e, hh⟩ := ran_one ran; exact ⟨res, e, _, rfl, hh⟩)
    cases e
    obtain ⟨req, hreq, hh⟩ := hh
    rw [hreq]
    cases o with
    | set it => cases hreq; exact carried_two _ (C11_set it (textItem_of fit.1) fit.2) hh (C40_text_set it r rs he)
    | add it => cases hreq; exact carried_two _ (C11_add it (textItem_of fit)) hh (C40_text_add it r rs he)
    | replace it => cases hreq; exact carried_two _ (C11_replace it (textItem_of fit)) hh (C40_text_replace it r rs he)
    | delete k => cases hreq; exact carried_two _ (C11_delete k fit) hh (C40_text_delete k r rs he)
    | touch k e => cases hreq; exact carried_two _ (C11_touch k e fit.1 fit.2) hh (C40_text_touch k e r rs he)
    | flush => cases hreq; exact carried_two _ C11_flush hh (C40_text_flush r rs he)
    | _ => exact ho.elim
  | num _ o ho _ n hn r rs he hv =>
    cases o with
    | increment k d e =>
      obtain ⟨res, e', hh⟩ := ran_one ran
      cases e'
      exact carried_two _ (C11_increment k d e fit.1 fit.2) hh (C40_text_increment k d e n hn r rs he hv)
    | decrement k d e =>
      obtain ⟨res, e', hh⟩ := ran_one ran
      cases e'
      exact carried_two _ (C11_decrement k d e fit.1 fit.2) hh (C40_text_decrement k d e n hn r rs he hv)
    | _ => exact ho.elim
  | version _ _ r rs he hv hl hx =>
    obtain ⟨res, e', hh⟩ := ran_one ran
    cases e'
    exact carried_one _ C11_version hh (C40_text_version r.value hv hl hx r rs he rfl)

theorem carried_meta {h : Handler σ} {s s' : σ} (i : Issue) (fit : Fit .metap i.ask)
    {rss : List (List Response)} (ran : Ran h s (asked .metap i.ask) rss s') {x : Res Said}
    (gives : Gives .metap i.ask rss x) :
    Carried h .ascii s (i.call .metap) (asked .metap i.ask) x s' := by
  obtain ⟨a, h1, h2⟩ := i
  simp only [Issue.call] at *
  cases gives with
  | metaHit k r hf hv =>
    obtain ⟨res, e, hh⟩ := ran_one ran
    cases e
    exact carried_two _ (C12_get k fit) hh (C14_get k r hf hv)
  | metaMiss k =>
    obtain ⟨res, e, hh⟩ := ran_one ran
    cases e
    exact carried_two _ (C12_get k fit) hh (C14_get_miss k)
  | done _ o ho _ r rs he =>
    obtain ⟨res, e, hh⟩ : ∃ res, [r :: rs] = [res] ∧ ∃ req, asked .metap (.op o) = [req] ∧ h s req = (.ok res, s') := by
      cases o <;> first | exact ho.elim | exact fit.elim | exact (by obtain ⟨res, e, hh⟩ := ran_one ran; exact ⟨res, e, _, rfl, hh⟩)
    cases e
    obtain ⟨req, hreq, hh⟩ := hh
    cases o with
    | set it =>
      have hc : decide (it.cas ≠ 0) = decide (0 < it.cas) := by
        by_cases h0 : it.cas = 0
        · simp [h0]
        · simp [h0, Nat.pos_of_ne_zero h0]
      have hq : asked .metap (.op (.set it)) = [metaSetReq it] := by
        simp only [asked, metaSetReq, hc]
        cases it.flags <;> rfl
      rw [hq] at hreq ⊢
      cases hreq
      exact carried_two _ (C12_set it (metaItem_of fit)) hh (C40_meta_set it r rs he)
    | add it => cases hreq; exact carried_two _ (C12_add it (textItem_of fit)) hh (C40_meta_add it r rs he)
    | replace it => cases hreq; exact carried_two _ (C12_replace it (textItem_of fit)) hh (C40_meta_replace it r rs he)
    | delete k => cases hreq; exact carried_two _ (C12_delete k fit) hh (C40_meta_delete k r rs he)
    | flush => cases hreq; exact carried_two _ C12_flush hh (C40_meta_flush r rs he)
    | touch _ _ => exact fit.elim
    | _ => exact ho.elim
  | num _ o ho _ n hn r rs he hv =>
    cases o with
    | increment k d e =>
      obtain ⟨res, e', hh⟩ := ran_one ran
      cases e'
      exact carried_two _ (C12_increment k d e fit.1 fit.2) hh (C40_meta_increment k d e n hn r rs he hv)
    | decrement k d e =>
      obtain ⟨res, e', hh⟩ := ran_one ran
      cases e'
      exact carried_two _ (C12_decrement k d e fit.1 fit.2) hh (C40_meta_decrement k d e n hn r rs he hv)
    | _ => exact ho.elim
  | version _ _ r rs he hv hl hx =>
    obtain ⟨res, e', hh⟩ := ran_one ran
    cases e'
    exact carried_one _ C12_version hh (C40_meta_version r.value hv hl hx r rs he rfl)

theorem carried_bin {h : Handler σ} {s s' : σ} (i : Issue) (fit : Fit .binary i.ask)
    {rss : List (List Response)} (ran : Ran h s (asked .binary i.ask) rss s') {x : Res Said}
    (gives : Gives .binary i.ask rss x) :
    Carried h .binary s (i.call .binary) (asked .binary i.ask) x s' := by
  obtain ⟨a, h1, h2⟩ := i
  simp only [Issue.call] at *
  cases gives with
  | binHit k r hr =>
    obtain ⟨res, e, hh⟩ := ran_one ran
    cases e
    exact carried_two _ (C10_get h1 k fit) hh (C15_get h1 k r (binResp_of hr))
  | binMulti ks rss hone hb r rs he =>
    exact carried_multi h1 h2 ks fit ran hone hb he _
  | done _ o ho hp => exact absurd rfl hp
  | num _ o ho hp => exact absurd rfl hp
  | version _ hp => exact absurd rfl hp
  | binDone o ho r rs he =>
    obtain ⟨res, e, hh⟩ : ∃ res, [r :: rs] = [res] ∧ ∃ req, asked .binary (.op o) = [req] ∧ h s req = (.ok res, s') := by
      cases o <;> first | exact ho.elim | exact (by obtain ⟨res, e, hh⟩ := ran_one ran; exact ⟨res, e, _, rfl, hh⟩)
    cases e
    obtain ⟨req, hreq, hh⟩ := hh
    cases o with
    | set it => cases hreq; exact carried_two _ (C10_set h1 it (binItem_of fit)) hh (C40_binary_set h1 it r rs he)
    | add it => cases hreq; exact carried_two _ (C10_add h1 it (binItem_of fit)) hh (C40_binary_add h1 it r rs he)
    | replace it => cases hreq; exact carried_two _ (C10_replace h1 it (binItem_of fit)) hh (C40_binary_replace h1 it r rs he)
    | delete k => cases hreq; exact carried_two _ (C10_delete h1 k fit) hh (C40_binary_delete h1 k r rs he)
    | touch k e => cases hreq; exact carried_two _ (C10_touch h1 k e fit) hh (C40_binary_touch h1 k e r rs he)
    | flush => cases hreq; exact carried_two _ (C10_flush h1) hh (C40_binary_flush h1 r rs he)
    | _ => exact ho.elim
  | binNum o ho n hn r rs he hf hk hv =>
    cases o with
    | increment k d e =>
      obtain ⟨res, e', hh⟩ := ran_one ran
      cases e'
      exact carried_two _ (C10_increment h1 k d e fit.1 fit.2) hh (C40_binary_increment h1 k d e n hn r rs he hf hk hv)
    | decrement k d e =>
      obtain ⟨res, e', hh⟩ := ran_one ran
      cases e'
      exact carried_two _ (C10_decrement h1 k d e fit.1 fit.2) hh (C40_binary_decrement h1 k d e n hn r rs he hf hk hv)
    | _ => exact ho.elim
  | binVersion r rs he hf hk hl =>
    obtain ⟨res, e', hh⟩ := ran_one ran
    cases e'
    exact carried_one _ (C10_version h1) hh (C40_binary_version h1 r rs he hf hk hl)

theorem carried (p : Proto) {h : Handler σ} {s s' : σ} (i : Issue) (fit : Fit p i.ask)
    {rss : List (List Response)} (ran : Ran h s (asked p i.ask) rss s') {x : Res Said}
    (gives : Gives p i.ask rss x) :
    Carried h p.wire s (i.call p) (asked p i.ask) x s' := by
  cases p with
  | text name => exact carried_text name i fit ran gives
  | metap => exact carried_meta i fit ran gives
  | binary => exact carried_bin i fit ran gives

theorem serve_end (h : Handler σ) (s : σ) (q : Option Protocol) : serve h q s [] = ⟨[], [], s, .closed⟩ := by
  rw [serve_eq]
  cases q with
  | none => rfl
  | some p => cases p <;> rfl

theorem converse_serve {p : Proto} {h : Handler σ} {s s' : σ} {is : List Issue} {xs : List (Res Said)}
    (hc : Converse h p s is xs s') (q : Option Protocol) (hq : q = none ∨ q = some p.wire) :
    ∃ w out, sentBy p is w ∧ serve h q s w = ⟨is.flatMap fun i => asked p i.ask, out, s', .closed⟩ ∧ readBy p is xs out := by
  induction hc generalizing q with
  | nil s => exact ⟨[], [], rfl, serve_end h s q, rfl, rfl⟩
  | @cons s s1 s' i is rss x xs fit ran gives rest ih =>
    obtain ⟨w1, reply, hw1, hs, hrd⟩ := carried p i fit ran gives
    have key : ∃ w2, sentBy p is w2 ∧ ∀ q, (q = none ∨ q = some p.wire) → ∃ out, serve h q s1 w2
        = ⟨is.flatMap fun i => asked p i.ask, out, s', .closed⟩ ∧ readBy p is xs out := by
      obtain ⟨w2, o2, hw2, _, _⟩ := ih none (Or.inl rfl)
      refine ⟨w2, hw2, fun q hq => ?_⟩
      obtain ⟨w3, o3, hw3, hs3, hr3⟩ := ih q hq
      have : ∀ (is : List Issue) (a b : Bytes), sentBy p is a → sentBy p is b → a = b := by
        intro is
        induction is with
        | nil => intro a b ha hb; exact ha.trans hb.symm
        | cons j js ihj =>
          rintro a b ⟨a1, a2, ha1, ha2, rfl⟩ ⟨b1, b2, hb1, hb2, rfl⟩
          rw [ihj _ _ ha2 hb2, Res.ok.inj (ha1.symm.trans hb1)]
      rw [this _ _ _ hw2 hw3]
      exact ⟨o3, hs3, hr3⟩
    obtain ⟨w2, hw2, hall⟩ := key
    obtain ⟨q', hq', e⟩ := hs q w2 hq
    obtain ⟨o2, hs2, hr2⟩ := hall q' hq'
    refine ⟨w1 ++ w2, reply ++ o2, ⟨w1, w2, hw1, hw2, rfl⟩, ?_, ⟨x, xs, o2, rfl, hrd o2, hr2⟩⟩
    rw [e, hs2]
    rfl

/-- C16: for every sequence of operations of a client of this module (any protocol, arguments in range), and every
handler that answers them: the server calls the handler with exactly the requests of the operations, in order, and
the bytes it sends back are exactly those the calls read, each call returning what the handler's answer means. -/
theorem C16_operations {p : Proto} {h : Handler σ} {s s' : σ} {is : List Issue} {xs : List (Res Said)}
    (hc : Converse h p s is xs s') :
    ∃ w out, sentBy p is w ∧ serve h none s w = ⟨is.flatMap fun i => asked p i.ask, out, s', .closed⟩
      ∧ readBy p is xs out := converse_serve hc none (Or.inl rfl)

theorem converse_append {p : Proto} {h : Handler σ} {s s' : σ} {as bs : List Issue} {xs : List (Res Said)}
    (hc : Converse h p s (as ++ bs) xs s') :
    ∃ s1 ys zs, xs = ys ++ zs ∧ Converse h p s as ys s1 ∧ Converse h p s1 bs zs s' := by
  induction as generalizing s xs with
  | nil => exact ⟨s, [], xs, rfl, .nil s, hc⟩
  | cons a as ih =>
    cases hc with
    | cons fit ran gives rest =>
      obtain ⟨s1, ys, zs, rfl, h1, h2⟩ := ih rest
      exact ⟨s1, _ :: ys, zs, rfl, .cons fit ran gives h1, h2⟩

theorem converse_length {p : Proto} {h : Handler σ} {s s' : σ} {is : List Issue} {xs : List (Res Said)}
    (hc : Converse h p s is xs s') : xs.length = is.length := by
  induction hc with
  | nil => rfl
  | cons _ _ _ _ ih => simp [ih]

/-- C16, in lock step: when only the first operations (`as`) have been sent, their replies are already there: exactly
what these calls read, with the same results as in the whole conversation. -/
theorem C16_operations_lockstep {p : Proto} {h : Handler σ} {s s' : σ} {as bs : List Issue} {xs : List (Res Said)}
    (hc : Converse h p s (as ++ bs) xs s') :
    ∃ s1 w out, sentBy p as w ∧ serve h none s w = ⟨as.flatMap fun i => asked p i.ask, out, s1, .closed⟩
      ∧ readBy p as (xs.take as.length) out := by
  obtain ⟨s1, ys, zs, rfl, h1, _⟩ := converse_append hc
  obtain ⟨w, out, a, b, c⟩ := C16_operations h1
  have hl : ys.length = as.length := by
    exact converse_length h1
  rw [← hl, List.take_left]
  exact ⟨s1, w, out, a, b, c⟩

/-- C16: with a handler that gives every operation a proper answer, every sequence of operations is such a
conversation. -/
theorem C16_every {p : Proto} {h : Handler σ} (ho : Obliging h p) (is : List Issue) (hf : ∀ i ∈ is, Fit p i.ask) (s : σ) :
    ∃ xs s', Converse h p s is xs s' := by
  induction is generalizing s with
  | nil => exact ⟨[], s, .nil s⟩
  | cons i is ih =>
    obtain ⟨rss, s1, x, hr, hg⟩ := ho s i.ask (hf i (by simp))
    obtain ⟨xs, s', hc⟩ := ih (fun j hj => hf j (by simp [hj])) s1
    exact ⟨x :: xs, s', .cons (hf i (by simp)) hr hg hc⟩

/-! ### Concurrent connections -/

theorem ran_replay {reqs : List Request} {rss : List (List Response)} (h : rss.length = reqs.length)
    (l : List (Res (List Response))) : Ran replay (rss.map .ok ++ l) reqs rss l := by
  induction rss generalizing reqs with
  | nil =>
    cases reqs with
    | nil => exact .nil _
    | cons _ _ => simp at h
  | cons rs rss ih =>
    cases reqs with
    | nil => simp at h
    | cons req reqs => exact .cons rfl (ih (by simpa using h))

theorem heard_converse {p : Proto} {is : List Issue} {rss : List (List Response)} {xs : List (Res Said)}
    (h : Heard p is rss xs) : Converse replay p (rss.map .ok) is xs [] := by
  induction h with
  | nil => exact .nil _
  | cons fit len gives _ ih =>
    rw [List.map_append]
    exact .cons fit (ran_replay len _) gives ih

theorem sentBy_unique {p : Proto} {is : List Issue} {a b : Bytes} (ha : sentBy p is a) (hb : sentBy p is b) : a = b := by
  induction is generalizing a b with
  | nil => exact Eq.trans ha (Eq.symm hb)
  | cons j js ih =>
    obtain ⟨a1, a2, ha1, ha2, rfl⟩ := ha
    obtain ⟨b1, b2, hb1, hb2, rfl⟩ := hb
    rw [ih ha2 hb2, Res.ok.inj (ha1.symm.trans hb1)]

open Accept in
/-- C56 with C16: one of any number of connections; its client is one of this module and has sent any operations,
the others do anything.  The handler (which may be busy for other connections at the same time) has answered this
connection, and the answers mean the results `xs`; the goroutine waits for more.  Then the handler was called
with exactly these operations' requests for this connection, and the client reads exactly `xs`. -/
theorem C56_operations {H : Concurrent σ} {s : σ} {w : World σ} (hr : Run H (.init s) w)
    {c : Nat} {k : Conn} (hk : w.conns c = some k) (ho : k.fin = none) (hb : k.busy = none)
    (hw : Waiting k) {p : Proto} {is : List Issue} (hsent : sentBy p is k.sent) {rss : List (List Response)}
    {xs : List (Res Said)} (hh : Heard p is rss xs) (hres : k.done.map (·.2) = rss.map .ok) :
    (k.done.map (·.1) = is.flatMap fun i => asked p i.ask) ∧ readBy p is xs k.out := by
  obtain ⟨v, out, h1, h2, h3⟩ := C16_operations (heard_converse hh)
  have := C56_caught_up hr hk ho hb hw (gave_replay k.done)
  rw [hres, sentBy_unique hsent h1, h2] at this
  injection this with e1 e2
  exact ⟨e1.symm, by rw [← e2]; exact h3⟩

/-! ### The hypotheses can be met -/

/-- A handler that knows one short item under every key, counts to seven and calls itself 1.0. (Example.) -/
def polite : Handler Nat := fun s req =>
  let binary := !(req.keys.isSome || req.getOpt.isSome || req.delOpt.isSome)
  if req.opcode = opGet then (.ok [{ key := b!"k", value := b!"END\r\n", flags := [0, 0, 0, 1] }], s + 1)
  else if req.opcode = opIncrement ∨ req.opcode = opDecrement then
    (.ok [{ value := if binary && req.setOpt.isSome then putBE 8 7 else natDec 7 }], s + 1)
  else if req.opcode = opVersion then (.ok [{ value := b!"1.0" }], s + 1)
  else (.ok [{}], s + 1)

theorem polite_k : TextKey b!"k" :=
  ⟨[107], by decide, by decide, by decide, by decide⟩

theorem polite_gets (f : Bytes → Request) (hf : ∀ k, (f k).opcode = opGet) (ks : List Bytes) (s : Nat) :
    Ran polite s (ks.map f) (ks.map fun _ => [{ key := b!"k", value := b!"END\r\n", flags := [0, 0, 0, 1] }]) (s + ks.length) := by
  induction ks generalizing s with
  | nil => exact .nil s
  | cons k ks ih =>
    refine .cons (s1 := s + 1) ?_ ?_
    · unfold polite; rw [if_pos (hf k)]
    · have := ih (s + 1)
      rw [List.length_cons, show s + (ks.length + 1) = s + 1 + ks.length from by omega]
      exact this

theorem ran_snoc {h : Handler σ} {a b : List Request} {s s1 s' : σ} {r1 r2 : List (List Response)}
    (h1 : Ran h s a r1 s1) (h2 : Ran h s1 b r2 s') : Ran h s (a ++ b) (r1 ++ r2) s' := by
  induction h1 with
  | nil => exact h2
  | cons hh _ ih => exact .cons hh (ih h2)

/-- It is obliging over every protocol, so C16 applies to every sequence of operations with arguments in range. -/
theorem polite_obliging (p : Proto) : Obliging polite p := by
  intro s a fit
  cases p with
  | text name =>
    cases a with
    | version => exact ⟨_, _, _, .cons rfl (.nil _), .version _ (fun h => by cases h) _ _ rfl (by decide) (by decide) (by decide)⟩
    | op o =>
      cases o with
      | get k => exact ⟨_, _, _, .cons rfl (.nil _), .textHit _ _ _ ⟨polite_k, by decide, by decide, by decide⟩⟩
      | getMulti ks =>
        exact ⟨_, _, _, .cons rfl (.nil _), .textMulti _ _ _ (by
          intro r hr; cases List.mem_singleton.1 hr; exact ⟨polite_k, by decide, by decide, by decide⟩)⟩
      | increment k d e => exact ⟨_, _, _, .cons rfl (.nil _), .num _ _ (by exact trivial) (fun h => by cases h) 7 (by decide) _ _ rfl rfl⟩
      | decrement k d e => exact ⟨_, _, _, .cons rfl (.nil _), .num _ _ (by exact trivial) (fun h => by cases h) 7 (by decide) _ _ rfl rfl⟩
      | _ => exact ⟨_, _, _, .cons rfl (.nil _), .done _ _ (by exact trivial) (fun h => by cases h) _ _ rfl⟩
  | metap =>
    cases a with
    | version => exact ⟨_, _, _, .cons rfl (.nil _), .version _ (fun h => by cases h) _ _ rfl (by decide) (by decide) (by decide)⟩
    | op o =>
      cases o with
      | get k => exact ⟨_, _, _, .cons rfl (.nil _), .metaHit _ _ (by decide) (by decide)⟩
      | getMulti ks => exact fit.elim
      | touch k e => exact fit.elim
      | increment k d e => exact ⟨_, _, _, .cons rfl (.nil _), .num _ _ (by exact trivial) (fun h => by cases h) 7 (by decide) _ _ rfl rfl⟩
      | decrement k d e => exact ⟨_, _, _, .cons rfl (.nil _), .num _ _ (by exact trivial) (fun h => by cases h) 7 (by decide) _ _ rfl rfl⟩
      | _ => exact ⟨_, _, _, .cons rfl (.nil _), .done _ _ (by exact trivial) (fun h => by cases h) _ _ rfl⟩
  | binary =>
    cases a with
    | version => exact ⟨_, _, _, .cons rfl (.nil _), .binVersion _ _ rfl rfl rfl (by decide)⟩
    | op o =>
      cases o with
      | get k => exact ⟨_, _, _, .cons rfl (.nil _), .binHit _ _ ⟨by decide, by decide, by decide⟩⟩
      | getMulti ks =>
        refine ⟨_, _, _, ran_snoc (polite_gets quietGet (fun _ => rfl) ks s) (.cons rfl (.nil _)),
          .binMulti _ _ ?_ ?_ {} [] ⟨rfl, rfl, rfl, rfl⟩⟩
        · intro rs hrs
          obtain ⟨_, _, rfl⟩ := List.mem_map.1 hrs
          decide
        · intro rs hrs r hr
          obtain ⟨_, _, rfl⟩ := List.mem_map.1 hrs
          cases List.mem_singleton.1 hr
          exact ⟨by decide, by decide, by decide⟩
      | increment k d e => exact ⟨_, _, _, .cons rfl (.nil _), .binNum _ (by exact trivial) 7 (by decide) _ _ rfl rfl rfl rfl⟩
      | decrement k d e => exact ⟨_, _, _, .cons rfl (.nil _), .binNum _ (by exact trivial) 7 (by decide) _ _ rfl rfl rfl rfl⟩
      | _ => exact ⟨_, _, _, .cons rfl (.nil _), .binDone _ (by exact trivial) _ _ ⟨rfl, rfl, rfl, rfl⟩⟩

/-- Four operations over one binary connection. -/
example : ∃ xs s', Converse polite .binary 0
    [⟨.op (.set { key := b!"a", value := b!"x\r\n" }), {}, {}⟩, ⟨.op (.getMulti [b!"a", b!"", b!"a"]), {}, {}⟩,
      ⟨.op (.increment b!"n" (-3) 5), {}, {}⟩, ⟨.version, {}, {}⟩] xs s' :=
  C16_every (polite_obliging .binary) _ (by
    intro i hi
    simp only [List.mem_cons, List.not_mem_nil, or_false] at hi
    rcases hi with rfl | rfl | rfl | rfl
    · show BinFit _
      exact ⟨by decide, fun f hf => (by cases hf), by decide⟩
    · show ∀ k ∈ _, _
      intro k hk
      simp only [List.mem_cons, List.not_mem_nil, or_false] at hk
      rcases hk with rfl | rfl | rfl <;> decide
    · show _ ∧ _
      exact ⟨by decide, by decide⟩
    · trivial) 0

/-- The request of a text `Get` of `a`. (Example.) -/
def getsAReq : Request := { opcode := opGet, keys := some [b!"a"] }

open Accept in
/-- A text client that has called Get and been answered, while another connection has sent half a request: the
hypotheses of `C56_operations`. -/
example : ∃ w : World (Atomic Nat), Run (atomically counting) (.init (.init 0)) w ∧
    ∃ k, w.conns 0 = some k ∧ k.fin = none ∧ k.busy = none ∧ Waiting k
      ∧ sentBy (.text b!"srv") [⟨.op (.get b!"a"), {}, {}⟩] k.sent
      ∧ Heard (.text b!"srv") [⟨.op (.get b!"a"), {}, {}⟩] [[]] [.err .itemNotFound] ∧ k.done.map (·.2) = [[]].map .ok := by
  have r1 := Run.tail _ _ _ (.refl (H := atomically counting) (w := World.init (Atomic.init 0)))
    (.accept _ 0 rfl rfl rfl)
  have r2 := Run.tail _ _ _ r1 (.accept _ 1 rfl rfl rfl)
  have r3 := Run.tail _ _ _ r2 (.arrive _ 0 _ b!"gets a\r\n" rfl rfl rfl)
  have r4 := Run.tail _ _ _ r3 (.arrive _ 1 _ b!"get" rfl rfl rfl)
  have r5 := Run.tail _ _ _ r4 (.read _ 0 _ .ascii getsAReq [] rfl rfl rfl rfl (by decide +kernel))
  have r6 := Run.tail _ _ _ r5 (.work _ _ rfl ⟨0, getsAReq, rfl, rfl⟩)
  have r7 := Run.tail _ _ _ r6 (.answer _ 0 _ .ascii getsAReq [] _ b!"END\r\n" rfl rfl rfl rfl
    ⟨rfl, rfl⟩ (by decide +kernel))
  refine ⟨_, r7, _, rfl, rfl, rfl, ⟨rfl, by decide +kernel⟩, ⟨b!"gets a\r\n", [], rfl, rfl, rfl⟩, ?_, rfl⟩
  exact .cons (rss := [[]]) (more := []) (by show Plain _; decide) rfl (.textMiss _ _) .nil

end Props
end Verif
