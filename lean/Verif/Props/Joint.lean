import Verif.Spec.Joint
import Verif.Props.Served
/-!
C81, first part: what a client's answers must have been if its calls have results.
-/

namespace Verif
namespace Joint
open Srv Spec Props
open Accept (Conn Concurrent Run Atomic atomically)

variable {T : Type} [DecidableEq T] {σ : Type}

/-! ### Usable answers -/

/-- All these answers are proper. -/
def AllProper (p : Proto) (es : List (Request × Res (List Response))) : Prop :=
  ∀ e ∈ es, ∃ rs, e.2 = .ok rs ∧ Usable p e.1 rs

theorem answers_of {p : Proto} : ∀ {es : List (Request × Res (List Response))}, AllProper p es →
    ∃ rss : List (List Response), es.map (·.2) = rss.map .ok := by
  intro es
  induction es with
  | nil => intro _; exact ⟨[], rfl⟩
  | cons e es ih =>
    intro h
    obtain ⟨rs, h1, _⟩ := h e (by simp)
    obtain ⟨rss, h2⟩ := ih fun x hx => h x (by simp [hx])
    exact ⟨rs :: rss, by simp [h1, h2]⟩

theorem ops : opGet ≠ opSet ∧ opGet ≠ opAdd := by decide

theorem proper_gives_one {p : Proto} {a : Ask} {req : Request} {rs : List Response} (fit : Fit p a)
    (hb : ∀ op, a = .op op → ¬ Flow.Batch p op) (ha : asked p a = [req]) (hp : Usable p req rs) : ∃ x, Gives p a [rs] x := by
  unfold Usable at hp
  cases p with
  | text name =>
    cases a with
    | version =>
      injection ha with ha; subst ha
      rw [if_neg (by decide : ¬ opVersion = opGet)] at hp
      obtain ⟨r, more, rfl, he, _, hv⟩ := hp
      rw [if_neg (by decide), if_pos rfl, if_neg (by intro h; cases h)] at hv
      exact ⟨_, .version _ (by intro h; cases h) r more he hv.1 hv.2.1 hv.2.2⟩
    | op o =>
      have silent : ∀ (ho : Silent o), ¬ req.opcode = opGet → ∃ x, Gives (.text name) (.op o) [rs] x := by
        intro ho hne
        rw [if_neg hne] at hp
        obtain ⟨r, more, rfl, he, _⟩ := hp
        exact ⟨_, .done _ o ho (by intro h; cases h) r more he⟩
      have count : ∀ (ho : Counting o), ¬ req.opcode = opGet → (req.opcode = opIncrement ∨ req.opcode = opDecrement) →
          ∃ x, Gives (.text name) (.op o) [rs] x := by
        intro ho hne hc
        rw [if_neg hne] at hp
        obtain ⟨r, more, rfl, he, _, hv⟩ := hp
        rw [if_pos hc] at hv
        obtain ⟨n, hn, hv⟩ := hv
        rw [if_neg (by intro h; cases h)] at hv
        exact ⟨_, .num _ o ho (by intro h; cases h) n hn r more he hv⟩
      cases o with
      | get k =>
        injection ha with ha; subst ha
        rw [if_pos rfl] at hp
        have hlen := hp.2 k rfl
        cases rs with
        | nil => exact ⟨_, .textMiss name k⟩
        | cons r more =>
          cases more with
          | nil => exact ⟨_, .textHit name k r (hp.1 r (by simp))⟩
          | cons _ _ => simp at hlen
      | getMulti ks =>
        injection ha with ha; subst ha
        rw [if_pos rfl] at hp
        exact ⟨_, .textMulti name ks rs hp.1⟩
      | increment k d e => injection ha with ha; subst ha; exact count trivial (by exact (by decide : ¬ opIncrement = opGet)) (.inl rfl)
      | decrement k d e => injection ha with ha; subst ha; exact count trivial (by exact (by decide : ¬ opDecrement = opGet)) (.inr rfl)
      | set i => injection ha with ha; subst ha; exact silent trivial (by exact (by decide : ¬ opSet = opGet))
      | add i => injection ha with ha; subst ha; exact silent trivial (by exact (by decide : ¬ opAdd = opGet))
      | replace i => injection ha with ha; subst ha; exact silent trivial (by exact (by decide : ¬ opReplace = opGet))
      | delete k => injection ha with ha; subst ha; exact silent trivial (by exact (by decide : ¬ opDelete = opGet))
      | touch k e => injection ha with ha; subst ha; exact silent trivial (by exact (by decide : ¬ opTouch = opGet))
      | flush => injection ha with ha; subst ha; exact silent trivial (by exact (by decide : ¬ opFlush = opGet))
  | metap =>
    cases a with
    | version =>
      injection ha with ha; subst ha
      rw [if_neg (by decide : ¬ opVersion = opGet)] at hp
      obtain ⟨r, more, rfl, he, _, hv⟩ := hp
      rw [if_neg (by decide), if_pos rfl, if_neg (by intro h; cases h)] at hv
      exact ⟨_, .version _ (by intro h; cases h) r more he hv.1 hv.2.1 hv.2.2⟩
    | op o =>
      have silent : ∀ (ho : Silent o), ¬ req.opcode = opGet → ∃ x, Gives .metap (.op o) [rs] x := by
        intro ho hne
        rw [if_neg hne] at hp
        obtain ⟨r, more, rfl, he, _⟩ := hp
        exact ⟨_, .done _ o ho (by intro h; cases h) r more he⟩
      have count : ∀ (ho : Counting o), ¬ req.opcode = opGet → (req.opcode = opIncrement ∨ req.opcode = opDecrement) →
          ∃ x, Gives .metap (.op o) [rs] x := by
        intro ho hne hc
        rw [if_neg hne] at hp
        obtain ⟨r, more, rfl, he, _, hv⟩ := hp
        rw [if_pos hc] at hv
        obtain ⟨n, hn, hv⟩ := hv
        rw [if_neg (by intro h; cases h)] at hv
        exact ⟨_, .num _ o ho (by intro h; cases h) n hn r more he hv⟩
      cases o with
      | get k =>
        injection ha with ha; subst ha
        rw [if_pos rfl] at hp
        cases rs with
        | nil => exact ⟨_, .metaMiss k⟩
        | cons r more =>
          cases more with
          | nil => exact ⟨_, .metaHit k r (hp.2 r (by simp)).1 (hp.2 r (by simp)).2⟩
          | cons _ _ => have := hp.1; simp at this
      | getMulti ks => exact fit.elim
      | touch k e => exact fit.elim
      | increment k d e => injection ha with ha; subst ha; exact count trivial (by exact (by decide : ¬ opIncrement = opGet)) (.inl rfl)
      | decrement k d e => injection ha with ha; subst ha; exact count trivial (by exact (by decide : ¬ opDecrement = opGet)) (.inr rfl)
      | set i => injection ha with ha; subst ha; exact silent trivial (by exact (by decide : ¬ opSet = opGet))
      | add i => injection ha with ha; subst ha; exact silent trivial (by exact (by decide : ¬ opAdd = opGet))
      | replace i => injection ha with ha; subst ha; exact silent trivial (by exact (by decide : ¬ opReplace = opGet))
      | delete k => injection ha with ha; subst ha; exact silent trivial (by exact (by decide : ¬ opDelete = opGet))
      | flush => injection ha with ha; subst ha; exact silent trivial (by exact (by decide : ¬ opFlush = opGet))
  | binary =>
    cases a with
    | version =>
      injection ha with ha; subst ha
      rw [if_neg (by decide : ¬ opVersion = opGet)] at hp
      obtain ⟨r, more, rfl, he, hk, hv⟩ := hp
      rw [if_neg (by decide), if_pos rfl, if_pos rfl] at hv
      exact ⟨_, .binVersion r more he (hk rfl).1 (hk rfl).2 hv⟩
    | op o =>
      have silent : ∀ (ho : Silent o), ¬ req.opcode = opGet → ¬ (req.opcode = opIncrement ∨ req.opcode = opDecrement) →
          ¬ req.opcode = opVersion → ∃ x, Gives .binary (.op o) [rs] x := by
        intro ho hne h1 h2
        rw [if_neg hne] at hp
        obtain ⟨r, more, rfl, he, hk, hv⟩ := hp
        rw [if_neg h1, if_neg h2] at hv
        exact ⟨_, .binDone o ho r more ⟨he, (hk rfl).1, (hk rfl).2, hv rfl⟩⟩
      have count : ∀ (ho : Counting o), ¬ req.opcode = opGet → (req.opcode = opIncrement ∨ req.opcode = opDecrement) →
          ∃ x, Gives .binary (.op o) [rs] x := by
        intro ho hne hc
        rw [if_neg hne] at hp
        obtain ⟨r, more, rfl, he, hk, hv⟩ := hp
        rw [if_pos hc] at hv
        obtain ⟨n, hn, hv⟩ := hv
        rw [if_pos rfl] at hv
        exact ⟨_, .binNum o ho n hn r more he (hk rfl).1 (hk rfl).2 hv⟩
      cases o with
      | get k =>
        injection ha with ha; subst ha
        rw [if_pos rfl] at hp
        cases rs with
        | nil => exact absurd rfl (hp.2.2 rfl)
        | cons r more =>
          cases more with
          | nil => exact ⟨_, .binHit k r (hp.2.1 r (by simp))⟩
          | cons _ _ => have := hp.1; simp at this
      | getMulti ks => exact absurd trivial (hb _ rfl)
      | increment k d e => injection ha with ha; subst ha; exact count trivial (by exact (by decide : ¬ opIncrement = opGet)) (.inl rfl)
      | decrement k d e => injection ha with ha; subst ha; exact count trivial (by exact (by decide : ¬ opDecrement = opGet)) (.inr rfl)
      | set i => injection ha with ha; subst ha; exact silent trivial (by exact (by decide : ¬ opSet = opGet)) (by exact (by decide : ¬ (opSet = opIncrement ∨ opSet = opDecrement))) (by exact (by decide : ¬ opSet = opVersion))
      | add i => injection ha with ha; subst ha; exact silent trivial (by exact (by decide : ¬ opAdd = opGet)) (by exact (by decide : ¬ (opAdd = opIncrement ∨ opAdd = opDecrement))) (by exact (by decide : ¬ opAdd = opVersion))
      | replace i => injection ha with ha; subst ha; exact silent trivial (by exact (by decide : ¬ opReplace = opGet)) (by exact (by decide : ¬ (opReplace = opIncrement ∨ opReplace = opDecrement))) (by exact (by decide : ¬ opReplace = opVersion))
      | delete k => injection ha with ha; subst ha; exact silent trivial (by exact (by decide : ¬ opDelete = opGet)) (by exact (by decide : ¬ (opDelete = opIncrement ∨ opDelete = opDecrement))) (by exact (by decide : ¬ opDelete = opVersion))
      | touch k e => injection ha with ha; subst ha; exact silent trivial (by exact (by decide : ¬ opTouch = opGet)) (by exact (by decide : ¬ (opTouch = opIncrement ∨ opTouch = opDecrement))) (by exact (by decide : ¬ opTouch = opVersion))
      | flush => injection ha with ha; subst ha; exact silent trivial (by exact (by decide : ¬ opFlush = opGet)) (by exact (by decide : ¬ (opFlush = opIncrement ∨ opFlush = opDecrement))) (by exact (by decide : ¬ opFlush = opVersion))

/-- Of the operations with arguments in range only a binary `GetMulti` sends several requests. -/
theorem batch_is {p : Proto} {a : Ask} (fit : Fit p a) {op : Spec.Op} (ha : a = .op op) (hb : Flow.Batch p op) :
    p = .binary ∧ ∃ ks, op = .getMulti ks ∧ ∀ k ∈ ks, k.length ≤ 65535 := by
  subst ha
  revert fit hb
  cases p with
  | text name => intro hb _; cases op <;> exact hb.elim
  | metap =>
    cases op with
    | getMulti ks => intro _ fit; exact fit.elim
    | _ => intro hb _; exact hb.elim
  | binary =>
    cases op with
    | getMulti ks => intro _ fit; exact ⟨rfl, ks, rfl, fit⟩
    | _ => intro hb _; exact hb.elim

theorem proper_quiet {k : Bytes} {rs : List Response} (h : Usable .binary (quietGet k) rs) :
    rs.length ≤ 1 ∧ ∀ r ∈ rs, BinFound r := by
  unfold Usable at h
  rw [if_pos (by rfl)] at h
  exact ⟨h.1, h.2.1⟩

theorem proper_noop {rs : List Response} (h : Usable .binary { opcode := opNoop } rs) : ∃ r more, rs = r :: more ∧ Bare r := by
  unfold Usable at h
  rw [if_neg (by decide : ¬ opNoop = opGet)] at h
  obtain ⟨r, more, rfl, he, hk, hv⟩ := h
  rw [if_neg (by decide), if_neg (by decide)] at hv
  exact ⟨r, more, rfl, he, (hk rfl).1, (hk rfl).2, hv rfl⟩

theorem proper_gets {ks : List Bytes} : ∀ {rss : List (List Response)}, rss.length = ks.length →
    (∀ z ∈ (ks.map quietGet).zip rss, Usable .binary z.1 z.2) → (∀ rs ∈ rss, rs.length ≤ 1) ∧ ∀ rs ∈ rss, ∀ r ∈ rs, BinFound r := by
  induction ks with
  | nil => intro rss hl _; cases rss with
    | nil => simp
    | cons _ _ => simp at hl
  | cons k ks ih =>
    intro rss hl h
    cases rss with
    | nil => simp at hl
    | cons rs rss =>
      have h1 := proper_quiet (h (quietGet k, rs) (by simp))
      obtain ⟨h2, h3⟩ := ih (by simpa using hl) fun z hz => h z (by simp [hz])
      constructor
      · intro x hx; rcases List.mem_cons.1 hx with rfl | hx
        · exact h1.1
        · exact h2 x hx
      · intro x hx; rcases List.mem_cons.1 hx with rfl | hx
        · exact h1.2
        · exact h3 x hx

/-- Usable answers to all requests of an operation mean a result. -/
theorem proper_gives {p : Proto} {a : Ask} {rss : List (List Response)} (fit : Fit p a) (hl : rss.length = (asked p a).length)
    (hp : ∀ z ∈ (asked p a).zip rss, Usable p z.1 z.2) : ∃ x, Gives p a rss x := by
  by_cases hb : ∃ op, a = .op op ∧ Flow.Batch p op
  · obtain ⟨op, ha, hb⟩ := hb
    obtain ⟨rfl, ks, rfl, hk⟩ := batch_is fit ha hb
    subst ha
    have ha : asked .binary (.op (.getMulti ks)) = ks.map quietGet ++ [{ opcode := opNoop }] := rfl
    rw [ha] at hl hp
    obtain ⟨rs1, last, rfl⟩ : ∃ rs1 last, rss = rs1 ++ [last] := by
      rcases List.eq_nil_or_concat rss with h | ⟨x, y, h⟩
      · rw [h] at hl; simp at hl
      · exact ⟨x, y, by rw [h, List.concat_eq_append]⟩
    have hl' : rs1.length = ks.length := by simpa using hl
    rw [List.zip_append (by simp [hl'])] at hp
    obtain ⟨h1, h2⟩ := proper_gets hl' fun z hz => hp z (List.mem_append_left _ hz)
    obtain ⟨r, more, rfl, hr⟩ := proper_noop (hp ({ opcode := opNoop }, last) (by simp))
    exact ⟨_, .binMulti ks rs1 h1 h2 r more hr⟩
  · have hb' : ∀ op, a = .op op → ¬ Flow.Batch p op := fun op ho hB => hb ⟨op, ho, hB⟩
    obtain ⟨req, hreq, _⟩ := Flow.arrives_ask p ⟨a, {}, {}⟩ fit hb'
    have hreq : asked p a = [req] := hreq
    rw [hreq] at hl hp
    obtain ⟨rs, rfl⟩ : ∃ rs, rss = [rs] := by
      cases rss with
      | nil => simp at hl
      | cons x l => cases l with
        | nil => exact ⟨x, rfl⟩
        | cons _ _ => simp at hl
    exact proper_gives_one fit hb' hreq (hp (req, rs) (by simp))

/-! ### A script of answers -/

/-- The handler that expects these requests and gives these answers. -/
def script : Handler (List (Request × Res (List Response))) := fun l req =>
  match l with
  | [] => (.panic, [])
  | e :: l => if e.1 = req then (e.2, l) else (.panic, e :: l)

theorem gave_script (l rest : List (Request × Res (List Response))) : Gave script (l ++ rest) l rest := by
  induction l with
  | nil => rfl
  | cons e l ih =>
    obtain ⟨r, x⟩ := e
    have : script ((r, x) :: l ++ rest) r = (x, l ++ rest) := by simp [script]
    exact ⟨by rw [this], by rw [this]; exact ih⟩

theorem ran_script {es rest : List (Request × Res (List Response))} {rss : List (List Response)}
    (h : es.map (·.2) = rss.map .ok) : Ran script (es ++ rest) (es.map (·.1)) rss rest := by
  induction es generalizing rss with
  | nil =>
    cases rss with
    | nil => exact .nil _
    | cons _ _ => simp at h
  | cons e es ih =>
    cases rss with
    | nil => simp at h
    | cons rs rss =>
      simp only [List.map_cons, List.cons.injEq] at h
      refine .cons (s1 := es ++ rest) ?_ (ih h.2)
      show script (e :: (es ++ rest)) e.1 = _
      simp [script, h.1]

/-- The script has the requests in store, or it fails at one of them. -/
theorem script_split (reqs : List Request) : ∀ l : List (Request × Res (List Response)),
    (∃ es l', l = es ++ l' ∧ es.map (·.1) = reqs) ∨
    ∃ es l' r rs, l = es ++ l' ∧ reqs = es.map (·.1) ++ r :: rs ∧ (script l' r).1 = .panic := by
  induction reqs with
  | nil => intro l; exact .inl ⟨[], l, rfl, rfl⟩
  | cons r rs ih =>
    intro l
    cases l with
    | nil => exact .inr ⟨[], [], r, rs, rfl, rfl, rfl⟩
    | cons e l =>
      by_cases he : e.1 = r
      · rcases ih l with ⟨es, l', h1, h2⟩ | ⟨es, l', r', rs', h1, h2, h3⟩
        · exact .inl ⟨e :: es, l', by rw [h1]; rfl, by simp [he, h2]⟩
        · exact .inr ⟨e :: es, l', r', rs', by rw [h1]; rfl, by rw [h2]; simp [he], h3⟩
      · exact .inr ⟨[], e :: l, r, rs, rfl, rfl, by simp [script, he]⟩

theorem zip_proper {p : Proto} : ∀ {es : List (Request × Res (List Response))} {rss : List (List Response)}, AllProper p es →
    es.map (·.2) = rss.map .ok → ∀ z ∈ (es.map (·.1)).zip rss, Usable p z.1 z.2 := by
  intro es
  induction es with
  | nil => intro rss _ _ z hz; simp at hz
  | cons e es ih =>
    intro rss hp h z hz
    cases rss with
    | nil => simp at h
    | cons rs rss =>
      simp only [List.map_cons, List.cons.injEq] at h
      simp only [List.map_cons, List.zip_cons_cons, List.mem_cons] at hz
      rcases hz with rfl | hz
      · obtain ⟨rs', h1, h2⟩ := hp e (by simp)
        rw [h.1] at h1
        cases h1
        exact h2
      · exact ih (fun x hx => hp x (by simp [hx])) h.2 z hz

theorem serve_panic {h : Handler σ} {q : Option Protocol} {s : σ} {i r : Bytes} {q' : Protocol} {req : Request}
    (hr : readRequest q i = (.ok (q', req), r)) (hh : (h s req).1 = .panic) : (serve h q s i).out = [] := by
  rw [serve_eq, hr]
  simp only [serveStep]
  cases hx : h s req with
  | mk a b => rw [hx] at hh; cases hh; rfl

/-- An operation of which not all requests are answered hears too little. -/
theorem unanswered {p : Proto} {i : Issue} (fit : Fit p i.ask) {l0 l : List (Request × Res (List Response))}
    (hp : AllProper p l) {es l' : List (Request × Res (List Response))} {r : Request} {rs : List Request} (hl : l = es ++ l')
    (ha : asked p i.ask = es.map (·.1) ++ r :: rs) (hr : (script l' r).1 = .panic)
    {sent out : Bytes} {reqs : List Request} (H : Served.Has script p.wire l0 sent reqs out l) {w : Bytes}
    (hw : (i.use p).wire = .ok w) :
    ((i.use p).rd (replyTo (fun i => (serve script none l0 i).out) sent w)).1 = .err .io := by
  obtain ⟨q, hq, e⟩ := H w
  have hrep : replyTo (fun i => (serve script none l0 i).out) sent w = (serve script q l w).out := by
    show List.drop (serve script none l0 sent).out.length (serve script none l0 (sent ++ w)).out = _
    rw [H.here, e]
    simp
  rw [hrep]
  have hreader := (Served.use_client p i).reader
  have hw' : (i.call p).wire = .ok w := hw
  by_cases hb : ∃ op, i.ask = .op op ∧ Flow.Batch p op
  · obtain ⟨op, ho, hb⟩ := hb
    obtain ⟨rfl, ks, rfl, hk⟩ := batch_is fit ho hb
    obtain ⟨a, h1, h2⟩ := i
    have ho : a = _ := ho
    subst ho
    have ha : ks.map quietGet ++ [{ opcode := opNoop }] = es.map (·.1) ++ r :: rs := ha
    obtain ⟨as, bs, hks, hes⟩ : ∃ as bs, ks = as ++ bs ∧ es.map (·.1) = as.map quietGet := by
      have hlen : es.length ≤ ks.length := by
        have := congrArg List.length ha
        simp at this
        omega
      refine ⟨ks.take es.length, ks.drop es.length, (List.take_append_drop _ _).symm, ?_⟩
      have h3 := congrArg (List.take es.length) ha
      rw [List.take_append_of_le_length (by simpa using hlen), List.take_append_of_le_length (by simp)] at h3
      rw [List.map_take, h3, List.take_of_length_le (by simp)]
    obtain ⟨rss, hrss⟩ := answers_of (p := .binary) (es := es) fun x hx => hp x (by rw [hl]; exact List.mem_append_left _ hx)
    have hran := ran_script (rest := l') hrss
    rw [← hl, hes] at hran
    obtain ⟨w', hw2, hread⟩ := C10_getMulti h1 h2 ks hk
    obtain rfl : w = w' := Res.ok.inj (hw'.symm.trans hw2)
    have hreads := hread q hq []
    rw [List.append_nil, ha, hes] at hreads
    obtain ⟨q', mid, hq', ⟨mid', hr1, _⟩, e1⟩ := serve_gets_all hran hreads hq
    have hout : (serve script q l w).out = rss.flatMap getBytes := by
      rw [e1, serve_panic hr1 hr, List.append_nil]
    rw [hout]
    have hzip := zip_proper (p := .binary) (es := es) (rss := rss) (fun x hx => hp x (by rw [hl]; exact List.mem_append_left _ hx)) hrss
    rw [hes] at hzip
    have hlen : rss.length = as.length := by
      have h4 := congrArg List.length hrss
      have h5 := congrArg List.length hes
      simp at h4 h5
      omega
    obtain ⟨hone, hfound⟩ := proper_gets hlen hzip
    have hfull := C15_getMulti h1 h2 ks rss.flatten (fun r hr => by
      obtain ⟨l, hl, hr⟩ := List.mem_flatten.1 hr
      exact binResp_of (hfound l hl r hr)) []
    rw [List.append_nil] at hfull
    have hcat : rss.flatMap getBytes = rss.flatten.flatMap (writeBinary1 opGet) := by
      rw [flat_single hone]
    rw [hcat]
    cases Classical.em (((Issue.use .binary ⟨.op (.getMulti ks), h1, h2⟩).rd (rss.flatten.flatMap (writeBinary1 opGet))).1 = .err .io) with
    | inl h => exact h
    | inr hne =>
      exfalso
      have hst := hreader.1 _ (writeBinary1 opNoop {}) hne
      have hfull' : ((Issue.use .binary ⟨.op (.getMulti ks), h1, h2⟩).rd (rss.flatten.flatMap (writeBinary1 opGet) ++ writeBinary1 opNoop {})).2 = [] := by
        show ((Bin.getMulti h1 h2 ks).rd _).2 = []
        rw [hfull]
      rw [hst] at hfull'
      have h6 := (List.append_eq_nil_iff.1 hfull').2
      have h7 : (writeBinary1 opNoop {}).length = 24 := by decide
      rw [h6] at h7
      cases h7
  · have hb' : ∀ op, i.ask = .op op → ¬ Flow.Batch p op := fun op ho hB => hb ⟨op, ho, hB⟩
    obtain ⟨req, hreq, w', hw2, hread⟩ := Flow.arrives_ask p i fit hb'
    obtain rfl : w = w' := Res.ok.inj (hw'.symm.trans hw2)
    rw [hreq] at ha
    obtain ⟨rfl, rfl⟩ : es = [] ∧ r = req := by
      cases es with
      | nil => simp at ha; exact ⟨rfl, ha.1.symm⟩
      | cons _ _ => simp at ha
    rw [List.nil_append] at hl
    subst hl
    have hr1 := hread q hq []
    rw [List.append_nil] at hr1
    rw [serve_panic hr1 hr, hreader.2]

/-- Calls made one after the other to a server with such a script have results only if the script has their requests, in
order; and then the results are those its answers mean. -/
theorem turns {p : Proto} {l0 : List (Request × Res (List Response))} (is : List Issue) : (∀ i ∈ is, Fit p i.ask) →
    ∀ {l : List (Request × Res (List Response))} {sent out : Bytes} {reqs : List Request}, AllProper p l →
    Served.Has script p.wire l0 sent reqs out l →
    .err .io ∉ oneByOne (fun i => (serve script none l0 i).out) sent [] (is.map (Issue.use p)) →
    ∃ mine rest rss xs out', l = mine ++ rest ∧ (mine.map (·.1) = is.flatMap fun i => asked p i.ask) ∧ mine.map (·.2) = rss.map .ok
      ∧ Heard p is rss xs
      ∧ oneByOne (fun i => (serve script none l0 i).out) sent [] (is.map (Issue.use p)) = xs.map (Res.map Said.toOut)
      ∧ Served.Has script p.wire l0 (sent ++ wiresOf (is.map (Issue.use p))) (reqs ++ mine.map (·.1)) out' rest := by
  induction is with
  | nil =>
    intro _ l sent out reqs _ H _
    exact ⟨[], l, [], [], out, rfl, rfl, rfl, .nil, rfl, by simpa [wiresOf] using H⟩
  | cons i is ih =>
    intro hf l sent out reqs hp H hio
    have fit := hf i (by simp)
    rcases script_split (asked p i.ask) l with ⟨es, l', hl, hes⟩ | ⟨es, l', r, rs, hl, ha, hr⟩
    · have hpe : AllProper p es := fun x hx => hp x (by rw [hl]; exact List.mem_append_left _ hx)
      obtain ⟨rss, hrss⟩ := answers_of hpe
      have hran := ran_script (rest := l') hrss
      rw [← hl, hes] at hran
      have hzip := zip_proper hpe hrss
      rw [hes] at hzip
      obtain ⟨x, hg⟩ := proper_gives fit (ran_length hran) hzip
      obtain ⟨w, b, hw, hs, hrd⟩ := Props.carried p i fit hran hg
      have H1 := H.more hs
      have hw' : (i.use p).wire = .ok w := hw
      have hrep := H.reply H1
      have hrd' : (i.use p).rd ([] ++ replyTo (fun i => (serve script none l0 i).out) sent w) = (x.map Said.toOut, []) := by
        have := hrd []
        rw [List.append_nil] at this
        rw [hrep, List.nil_append]
        show (((i.call p).rd b).1.map Said.toOut, ((i.call p).rd b).2) = _
        rw [this]
      rw [List.map_cons, oneByOne, hw'] at hio ⊢
      simp only [hrd'] at hio ⊢
      obtain ⟨mine, rest, rss2, xs, out', e1, e2, e3, e4, e5, e6⟩ := ih (fun j hj => hf j (by simp [hj]))
        (fun x hx => hp x (by rw [hl]; exact List.mem_append_right _ hx)) H1 (fun h => hio (by simp [h]))
      refine ⟨es ++ mine, rest, rss ++ rss2, x :: xs, out', by rw [hl, e1, List.append_assoc], ?_, ?_,
        .cons fit (ran_length hran) hg e4, by rw [e5]; rfl, ?_⟩
      · rw [List.map_append, hes, e2, List.flatMap_cons]
      · rw [List.map_append, hrss, e3, List.map_append]
      · have e4 : wiresOf (i.use p :: is.map (Issue.use p)) = w ++ wiresOf (is.map (Issue.use p)) := by
          rw [wiresOf, hw']
        rw [e4, List.map_append, hes, ← List.append_assoc, ← List.append_assoc]
        exact e6
    · exfalso
      apply hio
      rw [List.map_cons, oneByOne]
      have hwire : ∃ w, (i.use p).wire = .ok w := by
        by_cases hb : ∃ op, i.ask = .op op ∧ Flow.Batch p op
        · obtain ⟨op, ho, hb⟩ := hb
          obtain ⟨rfl, ks, rfl, hk⟩ := batch_is fit ho hb
          obtain ⟨a, h1, h2⟩ := i
          have ho : a = _ := ho
          subst ho
          exact ⟨_, rfl⟩
        · obtain ⟨req, _, w, hw, _⟩ := Flow.arrives_ask p i fit fun op ho hB => hb ⟨op, ho, hB⟩
          exact ⟨w, hw⟩
      obtain ⟨w, hw⟩ := hwire
      rw [hw]
      have := unanswered fit hp hl ha hr H hw
      simp only [List.nil_append, this, List.mem_cons, true_or]

end Joint
end Verif
