import Verif.Server.Accept
import Verif.Props.ServeLoop
import Verif.Props.ServerPanics
/-!
C56: the server with any number of concurrent connections.
-/

namespace Verif
namespace Spec
open Srv

/-- Called with these requests one after the other, starting in state `t`, the handler gives
these results and ends in state `t'`. -/
def Gave {τ : Type} (h : Handler τ) : τ → List (Request × Res (List Response)) → τ → Prop
  | t, [], t' => t = t'
  | t, (req, x) :: l, t' => (h t req).1 = x ∧ Gave h (h t req).2 l t'

/-- The protocol in which a connection's next request is read: the one it has, or the one its
first byte announces. -/
def Speaks (k : Accept.Conn) (q : Protocol) : Prop :=
  k.proto = some q ∨ (k.proto = none ∧ k.avail.head?.map protocolOf = some q)

/-- What is in front of a connection's goroutine: not enough bytes for a request yet. -/
def Waiting (k : Accept.Conn) : Prop :=
  k.eof = false ∧ (readRequest k.proto k.avail).1 = .err .io

/-- All requests of a connection have been answered, and its goroutine waits for more or has seen the
client close its side. -/
def Settled (k : Accept.Conn) : Prop := k.busy = none ∧ (k.fin = some .served ∨ k.fin = none ∧ Waiting k)

end Spec

namespace Props
open Srv Spec Accept

variable {σ τ : Type}

theorem Gave.snoc {h : Handler τ} {t t' : τ} {l : List (Request × Res (List Response))}
    {req : Request} {x : Res (List Response)} :
    Gave h t (l ++ [(req, x)]) t' ↔ ∃ m, Gave h t l m ∧ (h m req).1 = x ∧ (h m req).2 = t' := by
  induction l generalizing t with
  | nil => simp [Gave]
  | cons a l ih =>
    obtain ⟨r, y⟩ := a
    simp only [List.cons_append, Gave, ih]
    constructor
    · rintro ⟨a, m, b, c, d⟩; exact ⟨m, ⟨a, b⟩, c, d⟩
    · rintro ⟨m, ⟨a, b⟩, c, d⟩; exact ⟨a, m, b, c, d⟩

theorem stable_readRequest' (p : Option Protocol) : Stable (readRequest p) := by
  cases p with
  | some q => exact stable_readRequest q
  | none =>
    intro i t hi
    cases i with
    | nil => exact absurd rfl hi
    | cons b i =>
      rw [readRequest_none] at hi
      rw [List.cons_append, readRequest_none, readRequest_none, ← List.cons_append]
      exact stable_readRequest _ _ _ hi

/-- A session that has already done something. -/
def after (done : List (Request × Res (List Response))) (out : Bytes) (r : Session τ) : Session τ :=
  ⟨done.map (·.1) ++ r.handled, out ++ r.out, r.state, r.fin⟩

/-- The invariant of one connection. -/
def Ok (k : Conn) : Prop :=
  ∀ (τ : Type) (h : Handler τ) (t t' : τ), Gave h t k.done t' → ∀ more : Bytes,
    (k.eof = true → more = []) →
    match k.fin, k.busy with
    | none, none => serve h none t (k.sent ++ more) = after k.done k.out (serve h k.proto t' (k.avail ++ more))
    | none, some (q, req) => k.proto = some q ∧ serve h none t (k.sent ++ more)
        = after k.done k.out (serveStep h q t' req (fun s => serve h (some q) s (k.avail ++ more)))
    | some .served, _ => serve h none t (k.sent ++ more) = ⟨k.done.map (·.1), k.out, t', .closed⟩
    | some .crashed, _ => serve h none t (k.sent ++ more) = ⟨k.done.map (·.1), k.out, t', .crashed⟩
    | some .lost, _ => k.done.map (·.1) <+: (serve h none t (k.sent ++ more)).handled
        ∧ k.out <+: (serve h none t (k.sent ++ more)).out

theorem ok_new : Ok .new := by
  intro τ h t t' hg more hm
  cases hg
  simp [Conn.new, after]

theorem put_conns (w : World σ) (c d : Nat) (k : Conn) :
    (w.put c k).conns d = if d = c then some k else w.conns d := rfl

theorem put_conns_self (w : World σ) (c : Nat) (k : Conn) : (w.put c k).conns c = some k := by
  simp [put_conns]

/-- The connections after a step: one of them has moved in one of the ways the invariant allows. -/
theorem ok_step {H : Concurrent σ} {w w' : World σ} {a : Who} (hs : Step H w a w')
    (hw : ∀ c k, w.conns c = some k → Ok k) : ∀ c k, w'.conns c = some k → Ok k := by
  have upd : ∀ (c : Nat) (k : Conn), Ok k → ∀ d k', (if d = c then some k else w.conns d) = some k' → Ok k' := by
    intro c k hk d k' h
    split at h
    · cases h; exact hk
    · exact hw d k' h
  cases hs with
  | accept c up hl new => exact upd c _ ok_new
  | acceptFails up hl => exact hw
  | arrive c k bs up hk he =>
    refine upd c _ ?_
    intro τ h t t' hg more hm
    have := hw c k hk τ h t t' hg (bs ++ more) (by rw [he]; simp)
    simpa only [List.append_assoc] using this
  | hangup c k up hk he =>
    refine upd c _ ?_
    intro τ h t t' hg more hm
    exact hw c k hk τ h t t' hg more (by rw [he]; simp)
  | reset c k up hk ho hb =>
    refine upd c _ ?_
    intro τ h t t' hg more hm
    have := hw c k hk τ h t t' hg more hm
    simp only [ho, hb] at this
    simp only [this, after]
    exact ⟨List.prefix_append _ _, List.prefix_append _ _⟩
  | read c k q req r up hk ho hb hr =>
    refine upd c _ ?_
    intro τ h t t' hg more hm
    have := hw c k hk τ h t t' hg more hm
    simp only [ho, hb] at this
    simp only [ho, true_and]
    rw [this, serve_eq]
    have hst := stable_readRequest' k.proto k.avail more (by rw [hr]; simp)
    rw [hst, hr]
  | bad c k e r up hk ho hb hr he =>
    refine upd c _ ?_
    intro τ h t t' hg more hm
    have := hw c k hk τ h t t' hg more hm
    simp only [ho, hb] at this
    simp only
    have hst : (readRequest k.proto (k.avail ++ more)).1 = .err e := by
      rcases he with he | he
      · rw [stable_readRequest' k.proto k.avail more (by rw [hr]; simpa using he), hr]
      · rw [hm he, List.append_nil, hr]
    rw [this, serve_eq]
    cases hq : readRequest k.proto (k.avail ++ more) with
    | mk x y => rw [hq] at hst; cases hst; simp [after]
  | crash c k r up hk ho hb hr =>
    refine upd c _ ?_
    intro τ h t t' hg more hm
    have := hw c k hk τ h t t' hg more hm
    simp only [ho, hb] at this
    simp only
    have hst := stable_readRequest' k.proto k.avail more (by rw [hr]; simp)
    rw [this, serve_eq, hst, hr]
    simp [after]
  | work s up hs => exact hw
  | answer c k q req res s b up hk ho hb hs hwr =>
    refine upd c _ ?_
    intro τ h t t' hg more hm
    obtain ⟨m, h1, h2, rfl⟩ := Gave.snoc.1 hg
    have := hw c k hk τ h t m h1 more hm
    simp only [ho, hb] at this
    have e : h m req = (.ok res, (h m req).2) := by rw [← h2]
    simp only [ho, this.1]
    rw [this.2, serveStep, e]
    simp [hwr, after]
  | answerLost c k q req res s b n up hk ho hb hs hwr =>
    refine upd c _ ?_
    intro τ h t t' hg more hm
    obtain ⟨m, h1, h2, rfl⟩ := Gave.snoc.1 hg
    have := hw c k hk τ h t m h1 more hm
    simp only [ho, hb] at this
    have e : h m req = (.ok res, (h m req).2) := by rw [← h2]
    simp only
    rw [this.2, serveStep, e]
    simp only [hwr, after, List.map_append, List.map_cons, List.map_nil]
    refine ⟨(List.prefix_append_right_inj _).2 ⟨_, rfl⟩, (List.prefix_append_right_inj _).2 ?_⟩
    exact (List.take_prefix n b).trans (List.prefix_append _ _)
  | refuse c k q req e s up hk ho hb hs =>
    refine upd c _ ?_
    intro τ h t t' hg more hm
    obtain ⟨m, h1, h2, rfl⟩ := Gave.snoc.1 hg
    have := hw c k hk τ h t m h1 more hm
    simp only [ho, hb] at this
    have e : h m req = (.err e, (h m req).2) := by rw [← h2]
    simp only
    rw [this.2, serveStep, e]
    simp [after]
  | unwritable c k q req res e s up hk ho hb hs hwr =>
    refine upd c _ ?_
    intro τ h t t' hg more hm
    obtain ⟨m, h1, h2, rfl⟩ := Gave.snoc.1 hg
    have := hw c k hk τ h t m h1 more hm
    simp only [ho, hb] at this
    have e : h m req = (.ok res, (h m req).2) := by rw [← h2]
    simp only
    rw [this.2, serveStep, e]
    simp [hwr, after]
  | handlerCrash c k q req s up hk ho hb hs =>
    refine upd c _ ?_
    intro τ h t t' hg more hm
    obtain ⟨m, h1, h2, rfl⟩ := Gave.snoc.1 hg
    have := hw c k hk τ h t m h1 more hm
    simp only [ho, hb] at this
    have e : h m req = (.panic, (h m req).2) := by rw [← h2]
    simp only
    rw [this.2, serveStep, e]
    simp [after]
  | writeCrash c k q req res s up hk ho hb hs hwr =>
    refine upd c _ ?_
    intro τ h t t' hg more hm
    obtain ⟨m, h1, h2, rfl⟩ := Gave.snoc.1 hg
    have := hw c k hk τ h t m h1 more hm
    simp only [ho, hb] at this
    have e : h m req = (.ok res, (h m req).2) := by rw [← h2]
    simp only
    rw [this.2, serveStep, e]
    simp [hwr, after]

theorem ok_run {H : Concurrent σ} {s : σ} {w : World σ} (hr : Run H (.init s) w) :
    ∀ c k, w.conns c = some k → Ok k := by
  induction hr with
  | refl => intro c k h; cases h
  | tail v u a _ hs ih => exact ok_step hs ih

/-- C56: whatever the other connections do, and whatever the handler does with overlapping
calls: a connection the server has closed has had exactly the session its bytes call for — the
one of C36 with a handler that gives the answers this connection's requests were given. -/
theorem C56_session {H : Concurrent σ} {s : σ} {w : World σ} (hr : Run H (.init s) w)
    {c : Nat} {k : Conn} (hk : w.conns c = some k) (hf : k.fin = some .served)
    {h : Handler τ} {t t' : τ} (hg : Gave h t k.done t') :
    serve h none t k.sent = ⟨k.done.map (·.1), k.out, t', .closed⟩ := by
  have := ok_run hr c k hk τ h t t' hg [] (fun _ => rfl)
  rw [hf] at this
  simpa using this

/-- C56: and while it lasts, or when the network has cut it, what has been handled and sent is
an initial part of that session, whatever bytes may still follow. -/
theorem C56_prefix {H : Concurrent σ} {s : σ} {w : World σ} (hr : Run H (.init s) w)
    {c : Nat} {k : Conn} (hk : w.conns c = some k) (more : Bytes) (he : k.eof = true → more = [])
    {h : Handler τ} {t t' : τ} (hg : Gave h t k.done t') :
    k.done.map (·.1) <+: (serve h none t (k.sent ++ more)).handled
      ∧ k.out <+: (serve h none t (k.sent ++ more)).out := by
  have := ok_run hr c k hk τ h t t' hg more he
  cases hf : k.fin with
  | none =>
    cases hb : k.busy with
    | none =>
      simp only [hf, hb] at this
      rw [this]
      exact ⟨List.prefix_append _ _, List.prefix_append _ _⟩
    | some qr =>
      simp only [hf, hb] at this
      rw [this.2]
      exact ⟨List.prefix_append _ _, List.prefix_append _ _⟩
  | some f =>
    cases f <;> simp only [hf] at this
    · rw [this]; exact ⟨List.prefix_refl _, List.prefix_refl _⟩
    · exact this
    · rw [this]; exact ⟨List.prefix_refl _, List.prefix_refl _⟩

/-- C56: a connection whose goroutine is waiting for bytes has been served completely: every
request it has sent has been handled, and every reply due has been sent. -/
theorem C56_caught_up {H : Concurrent σ} {s : σ} {w : World σ} (hr : Run H (.init s) w)
    {c : Nat} {k : Conn} (hk : w.conns c = some k) (ho : k.fin = none) (hb : k.busy = none)
    (hw : Waiting k) {h : Handler τ} {t t' : τ} (hg : Gave h t k.done t') :
    serve h none t k.sent = ⟨k.done.map (·.1), k.out, t', .closed⟩ := by
  have := ok_run hr c k hk τ h t t' hg [] (fun _ => rfl)
  simp only [ho, hb, List.append_nil] at this
  rw [this, serve_eq]
  obtain ⟨_, hw⟩ := hw
  cases hq : readRequest k.proto k.avail with
  | mk x y => rw [hq] at hw; cases hw; simp [after]

/-- C56: connections do not touch one another: only a connection's own goroutine and its own
client change it. -/
theorem C56_frame {H : Concurrent σ} {w w' : World σ} {a : Who} (hs : Step H w a w')
    {c : Nat} {k : Conn} (hk : w.conns c = some k) (h1 : a ≠ .conn c) (h2 : a ≠ .net c) :
    w'.conns c = some k := by
  have upd : ∀ (d : Nat) (k' : Conn), d ≠ c → (if c = d then some k' else w.conns c) = some k := by
    intro d k' hd
    rw [if_neg (fun h => hd h.symm)]; exact hk
  cases hs with
  | accept d up hl new =>
    refine upd d _ ?_
    rintro rfl
    rw [new] at hk; cases hk
  | acceptFails up hl => exact hk
  | work s up hs => exact hk
  | arrive d k' bs up hk' he => exact upd d _ (fun h => h2 (by rw [h]))
  | hangup d k' up hk' he => exact upd d _ (fun h => h2 (by rw [h]))
  | reset d k' up hk' ho hb => exact upd d _ (fun h => h2 (by rw [h]))
  | read d k' q req r up hk' ho hb hr => exact upd d _ (fun h => h1 (by rw [h]))
  | bad d k' e r up hk' ho hb hr he => exact upd d _ (fun h => h1 (by rw [h]))
  | crash d k' r up hk' ho hb hr => exact upd d _ (fun h => h1 (by rw [h]))
  | answer d k' q req res s b up hk' ho hb hs hwr => exact upd d _ (fun h => h1 (by rw [h]))
  | answerLost d k' q req res s b n up hk' ho hb hs hwr => exact upd d _ (fun h => h1 (by rw [h]))
  | refuse d k' q req e s up hk' ho hb hs => exact upd d _ (fun h => h1 (by rw [h]))
  | unwritable d k' q req res e s up hk' ho hb hs hwr => exact upd d _ (fun h => h1 (by rw [h]))
  | handlerCrash d k' q req s up hk' ho hb hs => exact upd d _ (fun h => h1 (by rw [h]))
  | writeCrash d k' q req res s up hk' ho hb hs hwr => exact upd d _ (fun h => h1 (by rw [h]))

/-- C56: whatever state the other connections are in (busy in the handler, in the middle of a
request, reset), and whether or not the server still accepts: a goroutine that has its bytes in
front of it moves. -/
theorem C56_no_blocking {H : Concurrent σ} {w : World σ} (up : w.down = false)
    {c : Nat} {k : Conn} (hk : w.conns c = some k) (ho : k.fin = none) (hb : k.busy = none)
    (hw : ¬ Waiting k) : ∃ w', Step H w (.conn c) w' := by
  cases hq : readRequest k.proto k.avail with
  | mk x r =>
    cases x with
    | ok p => exact ⟨_, .read w c k p.1 p.2 r up hk ho hb hq⟩
    | panic => exact ⟨_, .crash w c k r up hk ho hb hq⟩
    | err e =>
      refine ⟨_, .bad w c k e r up hk ho hb hq ?_⟩
      by_cases he : e = .io
      · right
        by_cases h : k.eof = true
        · exact h
        · exact absurd ⟨by simpa using h, by rw [hq, he]⟩ hw
      · exact .inl he

/-- ... and a goroutine whose handler call can return moves. -/
theorem C56_no_blocking_return {H : Concurrent σ} {w : World σ} (up : w.down = false)
    {c : Nat} {k : Conn} (hk : w.conns c = some k) (ho : k.fin = none) {q : Protocol}
    {req : Request} (hb : k.busy = some (q, req)) {x : Res (List Response)} {s : σ}
    (hs : H.ret w.state c x s) :
    ∃ w' k', Step H w (.conn c) w' ∧ w'.conns c = some k' ∧ k'.done = k.done ++ [(req, x)]
      ∧ k'.busy = none ∧ w'.state = s := by
  cases x with
  | err e => exact ⟨_, _, .refuse w c k q req e s up hk ho hb hs, put_conns_self _ _ _, rfl, rfl, rfl⟩
  | panic => exact ⟨_, _, .handlerCrash w c k q req s up hk ho hb hs, put_conns_self _ _ _, rfl, rfl, rfl⟩
  | ok res =>
    cases hw : writeResponse q req res with
    | ok b => exact ⟨_, _, .answer w c k q req res s b up hk ho hb hs hw, put_conns_self _ _ _, rfl, rfl, rfl⟩
    | err e => exact ⟨_, _, .unwritable w c k q req res e s up hk ho hb hs hw, put_conns_self _ _ _, rfl, rfl, rfl⟩
    | panic => exact ⟨_, _, .writeCrash w c k q req res s up hk ho hb hs hw, put_conns_self _ _ _, rfl, rfl, rfl⟩

/-! ### Clients of this module on concurrent connections -/

/-- The handler that gives the results of a list, whatever it is asked. -/
def replay : Handler (List (Res (List Response))) := fun l _ =>
  match l with
  | [] => (.panic, [])
  | x :: l => (x, l)

theorem gave_replay (l : List (Request × Res (List Response))) : Gave replay (l.map (·.2)) l [] := by
  induction l with
  | nil => rfl
  | cons a l ih => exact ⟨rfl, ih⟩

theorem sendsAll_unique {es : List Exchange} {w v : Bytes} (h : SendsAll es w) (h' : SendsAll es v) : w = v := by
  induction es generalizing w v with
  | nil => rw [h, h']
  | cons e es ih =>
    obtain ⟨w1, w2, a, b, rfl⟩ := h
    obtain ⟨v1, v2, a', b', rfl⟩ := h'
    rw [a] at a'
    cases a'
    rw [ih b b']

/-- C56 with C16: a client of this module that has sent any operations over one of the
connections, while any other connections do anything: if the handler's answers to this
connection are those from which the operations get their results, and the goroutine is waiting
for more, then the handler was called with exactly these operations' requests and the client
reads exactly these results. -/
theorem C56_clients {H : Concurrent σ} {s : σ} {w : World σ} (hr : Run H (.init s) w)
    {c : Nat} {k : Conn} (hk : w.conns c = some k) (ho : k.fin = none) (hb : k.busy = none)
    (hw : Waiting k) (p : Protocol) (es : List Exchange) (hsent : SendsAll es k.sent)
    (harr : ∀ e ∈ es, Arrives p e.call e.req)
    (hans : ∀ e ∈ es, Answers p e.req e.res e.call e.result)
    (hres : k.done.map (·.2) = es.map (fun e => .ok e.res)) :
    k.done.map (·.1) = es.map (·.req) ∧ ClientGets es k.out := by
  have ht : Talk p replay (es.map (fun e => .ok e.res)) es [] := by
    clear hsent hres
    induction es with
    | nil => exact .nil _
    | cons e es ih =>
      exact .cons _ _ _ e es (harr e (by simp)) rfl (hans e (by simp))
        (ih (fun a h => harr a (by simp [h])) (fun a h => hans a (by simp [h])))
  obtain ⟨v, out, h1, h2, h3⟩ := C16_session ht
  have := C56_caught_up hr hk ho hb hw (gave_replay k.done)
  rw [hres, sendsAll_unique hsent h1, h2] at this
  injection this with e1 e2
  exact ⟨e1.symm, by rw [← e2]; exact h3⟩

/-! ### A crash -/

theorem speaks_panic {k : Conn} {q : Protocol} (hq : Speaks k q) (hc : CrashReq q k.avail) :
    ∃ r, readRequest k.proto k.avail = (.panic, r) := by
  obtain ⟨r, hr⟩ := (C38_parse q k.avail).2 hc
  rcases hq with hq | ⟨hn, hb⟩
  · exact ⟨r, by rw [hq]; exact hr⟩
  · refine ⟨r, ?_⟩
    rw [hn]
    cases hav : k.avail with
    | nil => rw [hav] at hb; cases hb
    | cons b i =>
      rw [hav] at hb hr
      rw [readRequest_none]
      simp only [List.head?_cons, Option.map_some, Option.some.injEq] at hb
      rw [hb]; exact hr

/-- C56: one malformed request of the kinds listed in C38, on any connection, in any state of
the others, and the only thing that connection's goroutine can do is end the whole process ... -/
theorem C56_crash {H : Concurrent σ} {w : World σ} (up : w.down = false)
    {c : Nat} {k : Conn} (hk : w.conns c = some k) (ho : k.fin = none) (hb : k.busy = none)
    {q : Protocol} (hq : Speaks k q) (hc : CrashReq q k.avail) :
    (∃ w', Step H w (.conn c) w') ∧ ∀ w', Step H w (.conn c) w' → w'.down = true := by
  obtain ⟨r, hr⟩ := speaks_panic hq hc
  refine ⟨⟨_, .crash w c k r up hk ho hb hr⟩, ?_⟩
  intro w' hs
  cases hs with
  | read _ k' q req r up hk' ho hb hr' => rw [hk] at hk'; cases hk'; rw [hr] at hr'; cases hr'
  | bad _ k' e r up hk' ho hb hr' he => rw [hk] at hk'; cases hk'; rw [hr] at hr'; cases hr'
  | crash => rfl
  | answer _ k' q req res s b up hk' ho hb' => rw [hk] at hk'; cases hk'; rw [hb] at hb'; cases hb'
  | answerLost _ k' q req res s b n up hk' ho hb' => rw [hk] at hk'; cases hk'; rw [hb] at hb'; cases hb'
  | refuse _ k' q req e s up hk' ho hb' => rw [hk] at hk'; cases hk'; rw [hb] at hb'; cases hb'
  | unwritable _ k' q req res e s up hk' ho hb' => rw [hk] at hk'; cases hk'; rw [hb] at hb'; cases hb'
  | handlerCrash => rfl
  | writeCrash => rfl

/-- ... after which no connection is read, answered or accepted any more. -/
theorem C56_dead {H : Concurrent σ} {w w' : World σ} (hd : w.down = true) (hr : Run H w w') :
    w' = w := by
  induction hr with
  | refl => rfl
  | tail v u a _ hs ih =>
    subst ih
    cases hs <;> simp_all

theorem crashed_conn {H : Concurrent σ} {s : σ} {w : World σ} (hr : Run H (.init s) w) (hd : w.down = true) :
    ∃ c k, w.conns c = some k ∧ k.fin = some .crashed := by
  revert hd
  cases hr with
  | refl => intro h; cases h
  | tail v u a _ hs =>
    intro hd
    cases hs with
    | crash c k => exact ⟨c, _, put_conns_self _ _ _, rfl⟩
    | handlerCrash c k => exact ⟨c, _, put_conns_self _ _ _, rfl⟩
    | writeCrash c k => exact ⟨c, _, put_conns_self _ _ _, rfl⟩
    | accept c up => exact absurd hd (by simp [World.put, up])
    | acceptFails up => exact absurd hd (by simp [up])
    | arrive c k bs up => exact absurd hd (by simp [World.put, up])
    | hangup c k up => exact absurd hd (by simp [World.put, up])
    | reset c k up => exact absurd hd (by simp [World.put, up])
    | read c k q req r up => exact absurd hd (by simp [World.put, up])
    | bad c k e r up => exact absurd hd (by simp [World.put, up])
    | work s up => exact absurd hd (by simp [up])
    | answer c k q req res s b up => exact absurd hd (by simp [World.put, up])
    | answerLost c k q req res s b n up => exact absurd hd (by simp [World.put, up])
    | refuse c k q req e s up => exact absurd hd (by simp [World.put, up])
    | unwritable c k q req res e s up => exact absurd hd (by simp [World.put, up])

/-- C56: conversely nothing else ends the process: if it is down, the bytes of one connection,
with the answers that connection was given, make its session crash in the sense of C36/C38. -/
theorem C56_down {H : Concurrent σ} {s : σ} {w : World σ} (hr : Run H (.init s) w)
    (hd : w.down = true) : ∃ c k, w.conns c = some k ∧
      ∀ (τ : Type) (h : Handler τ) (t t' : τ), Gave h t k.done t' →
        serve h none t k.sent = ⟨k.done.map (·.1), k.out, t', .crashed⟩ := by
  obtain ⟨c, k, hk, hf⟩ := crashed_conn hr hd
  refine ⟨c, k, hk, fun τ h t t' hg => ?_⟩
  have := ok_run hr c k hk τ h t t' hg [] (fun _ => rfl)
  rw [hf] at this
  simpa using this

/-! ### Atomic handlers -/

/-- The calls of connection `c` that have taken effect, in order. -/
def logOf (a : Atomic τ) (c : Nat) : List (Request × Res (List Response)) :=
  (a.log.filter (fun e => e.1 == c)).map (·.2)

/-- The invariant of an atomic handler in use, for one connection. -/
def Slot (w : Option Request) (r : Option (Res (List Response)))
    (l : List (Request × Res (List Response))) : Option Conn → Prop
  | none => w = none ∧ r = none ∧ l = []
  | some k =>
    match k.busy with
    | none => w = none ∧ r = none ∧ l = k.done
    | some (_, req) => (w = some req ∧ r = none ∧ l = k.done)
        ∨ ∃ x, w = none ∧ r = some x ∧ l = k.done ++ [(req, x)]

/-- A handler that keeps its books as an atomic one does: each call takes effect once, between its
start and its return. -/
structure Guarded (H : Concurrent (Atomic τ)) : Prop where
  call : ∀ a c req, H.call a c req = { a with waiting := fun d => if d = c then some req else a.waiting d }
  step : ∀ a a', H.step a a' →
    (∃ c req x t, a.waiting c = some req ∧
      a' = { own := t
             waiting := fun d => if d = c then none else a.waiting d
             ready := fun d => if d = c then some x else a.ready d
             log := a.log ++ [(c, req, x)] })
    ∨ ∃ t, a' = { a with own := t }
  ret : ∀ a c x a', H.ret a c x a' → a.ready c = some x ∧
    a' = { a with ready := fun d => if d = c then none else a.ready d }

theorem guarded_atomically (h : Handler τ) : Guarded (atomically h) := by
  refine ⟨fun _ _ _ => rfl, ?_, fun _ _ _ _ h => h⟩
  rintro a a' ⟨c, req, h1, rfl⟩
  exact .inl ⟨c, req, _, _, h1, rfl⟩

theorem slot_step {H : Concurrent (Atomic τ)} (hH : Guarded H) {w w' : World (Atomic τ)} {a : Who}
    (hs : Step H w a w')
    (hw : ∀ c, Slot (w.state.waiting c) (w.state.ready c) (logOf w.state c) (w.conns c)) :
    ∀ c, Slot (w'.state.waiting c) (w'.state.ready c) (logOf w'.state c) (w'.conns c) := by
  -- only a connection changes
  have upd : ∀ (c : Nat) (k : Conn),
      Slot (w.state.waiting c) (w.state.ready c) (logOf w.state c) (some k) →
      ∀ d, Slot (w.state.waiting d) (w.state.ready d) (logOf w.state d)
        (if d = c then some k else w.conns d) := by
    intro c k hk d
    by_cases h : d = c
    · subst h; rw [if_pos rfl]; exact hk
    · rw [if_neg h]; exact hw d
  -- a call returns
  have ret : ∀ (c : Nat) (k k' : Conn) (q : Protocol) (req : Request) (x : Res (List Response))
      (s : Atomic τ), w.conns c = some k → k.busy = some (q, req) → H.ret w.state c x s →
      k'.busy = none → k'.done = k.done ++ [(req, x)] →
      ∀ d, Slot (s.waiting d) (s.ready d) (logOf s d) (if d = c then some k' else w.conns d) := by
    intro c k k' q req x s hk hb hs hb' hd d
    obtain ⟨h1, rfl⟩ := hH.ret _ _ _ _ hs
    by_cases h : d = c
    · subst h
      have := hw d
      rw [hk] at this
      simp only [Slot, hb, h1] at this
      rcases this with ⟨_, h2, _⟩ | ⟨y, h2, h3, h4⟩
      · cases h2
      · cases h3
        simp only [↓reduceIte, Slot, hb', hd]
        exact ⟨h2, trivial, h4⟩
    · simp only [if_neg h]; exact hw d
  cases hs with
  | accept c up hl new =>
    refine upd c _ ?_
    have := hw c
    rw [new] at this
    exact this
  | acceptFails up hl => exact hw
  | work s up hs =>
    rcases hH.step _ _ hs with ⟨c, req, x, t, h1, rfl⟩ | ⟨t, rfl⟩
    case inr => exact hw
    intro d
    have hd := hw d
    by_cases h : d = c
    · subst h
      simp only [↓reduceIte, logOf, List.filter_append, List.map_append]
      rw [h1] at hd
      cases hk : w.conns d with
      | none => rw [hk] at hd; cases hd.1
      | some k =>
        rw [hk] at hd
        simp only [Slot] at hd ⊢
        cases hb : k.busy with
        | none => rw [hb] at hd; cases hd.1
        | some qr =>
          obtain ⟨q, req'⟩ := qr
          rw [hb] at hd
          rcases hd with ⟨h2, h3, h4⟩ | ⟨y, h2, _⟩
          · cases h2
            refine .inr ⟨x, by trivial, by trivial, ?_⟩
            rw [← h4]; simp [logOf]
          · cases h2
    · have hne : (c == d) = false := by simpa using fun e => h e.symm
      simp only [if_neg h, logOf, List.filter_append, List.filter_cons, hne, List.filter_nil]
      simpa [logOf] using hd
  | arrive c k bs up hk he =>
    refine upd c _ ?_
    have := hw c
    rw [hk] at this
    exact this
  | hangup c k up hk he =>
    refine upd c _ ?_
    have := hw c
    rw [hk] at this
    exact this
  | reset c k up hk ho hb =>
    refine upd c _ ?_
    have := hw c
    rw [hk] at this
    exact this
  | read c k q req r up hk ho hb hr =>
    intro d
    by_cases h : d = c
    · subst h
      have := hw d
      rw [hk] at this
      simp only [Slot, hb] at this
      rw [hH.call]
      show Slot (if d = d then some req else _) _ _ (if d = d then _ else _)
      simp only [↓reduceIte, Slot]
      exact .inl ⟨trivial, this.2⟩
    · have := hw d
      rw [hH.call]
      show Slot (if d = c then some req else _) _ _ (if d = c then _ else _)
      simp only [if_neg h]
      exact this
  | bad c k e r up hk ho hb hr he =>
    refine upd c _ ?_
    have := hw c
    rw [hk] at this
    exact this
  | crash c k r up hk ho hb hr =>
    refine upd c _ ?_
    have := hw c
    rw [hk] at this
    exact this
  | answer c k q req res s b up hk ho hb hs hwr => exact ret c k _ q req _ s hk hb hs rfl rfl
  | answerLost c k q req res s b n up hk ho hb hs hwr => exact ret c k _ q req _ s hk hb hs rfl rfl
  | refuse c k q req e s up hk ho hb hs => exact ret c k _ q req _ s hk hb hs rfl rfl
  | unwritable c k q req res e s up hk ho hb hs hwr => exact ret c k _ q req _ s hk hb hs rfl rfl
  | handlerCrash c k q req s up hk ho hb hs => exact ret c k _ q req _ s hk hb hs rfl rfl
  | writeCrash c k q req res s up hk ho hb hs hwr => exact ret c k _ q req _ s hk hb hs rfl rfl

theorem slot_run {H : Concurrent (Atomic τ)} (hH : Guarded H) {t : τ} {w : World (Atomic τ)}
    (hr : Run H (.init (.init t)) w) :
    ∀ c, Slot (w.state.waiting c) (w.state.ready c) (logOf w.state c) (w.conns c) := by
  induction hr with
  | refl => intro c; exact ⟨rfl, rfl, rfl⟩
  | tail v u a _ hs ih => exact slot_step hH hs ih

theorem slot_log {H : Concurrent (Atomic τ)} (hH : Guarded H) {t : τ} {w : World (Atomic τ)}
    (hr : Run H (.init (.init t)) w) {c : Nat} {k : Conn} (hk : w.conns c = some k) :
    k.done <+: (w.state.log.filter (fun e => e.1 == c)).map (·.2)
      ∧ (k.busy = none → (w.state.log.filter (fun e => e.1 == c)).map (·.2) = k.done) := by
  have := slot_run hH hr c
  rw [hk] at this
  simp only [Slot] at this
  cases hb : k.busy with
  | none =>
    rw [hb] at this
    refine ⟨?_, fun _ => this.2.2⟩
    show k.done <+: logOf w.state c
    rw [this.2.2]; exact List.prefix_refl _
  | some qr =>
    obtain ⟨q, req⟩ := qr
    rw [hb] at this
    refine ⟨?_, fun h => by cases h⟩
    show k.done <+: logOf w.state c
    rcases this with ⟨_, _, h3⟩ | ⟨x, _, _, h3⟩
    · rw [h3]; exact List.prefix_refl _
    · rw [h3]; exact List.prefix_append _ _

/-- What a step does to the log: nothing, or the handler runs one more call. -/
theorem log_step {h : Handler τ} {w w' : World (Atomic τ)} {a : Who}
    (hs : Step (atomically h) w a w') :
    (w'.state.log = w.state.log ∧ w'.state.own = w.state.own)
      ∨ ∃ c req, w'.state.log = w.state.log ++ [(c, req, (h w.state.own req).1)]
          ∧ w'.state.own = (h w.state.own req).2 := by
  cases hs with
  | work s up hs =>
    obtain ⟨c, req, h1, rfl⟩ := hs
    exact .inr ⟨c, req, rfl, rfl⟩
  | answer c k q req res s b up hk ho hb hs hwr => obtain ⟨_, rfl⟩ := hs; exact .inl ⟨rfl, rfl⟩
  | answerLost c k q req res s b n up hk ho hb hs hwr => obtain ⟨_, rfl⟩ := hs; exact .inl ⟨rfl, rfl⟩
  | refuse c k q req e s up hk ho hb hs => obtain ⟨_, rfl⟩ := hs; exact .inl ⟨rfl, rfl⟩
  | unwritable c k q req res e s up hk ho hb hs hwr => obtain ⟨_, rfl⟩ := hs; exact .inl ⟨rfl, rfl⟩
  | handlerCrash c k q req s up hk ho hb hs => obtain ⟨_, rfl⟩ := hs; exact .inl ⟨rfl, rfl⟩
  | writeCrash c k q req res s up hk ho hb hs hwr => obtain ⟨_, rfl⟩ := hs; exact .inl ⟨rfl, rfl⟩
  | _ => exact .inl ⟨rfl, rfl⟩

/-- C56: with an atomic handler the connections' requests have, all together, one order in
which the handler's results are those of a sequential run, and in which every connection's
requests stand in the order that connection sent them: `log` restricted to a connection is what
that connection was answered, plus the request being worked on if it has taken effect. -/
theorem C56_linear {h : Handler τ} {t : τ} {w : World (Atomic τ)}
    (hr : Run (atomically h) (.init (.init t)) w) :
    Gave h t (w.state.log.map (·.2)) w.state.own
      ∧ ∀ c k, w.conns c = some k → k.done <+: (w.state.log.filter (fun e => e.1 == c)).map (·.2)
          ∧ (k.busy = none → (w.state.log.filter (fun e => e.1 == c)).map (·.2) = k.done) := by
  refine ⟨?_, ?_⟩
  · induction hr with
    | refl => rfl
    | tail v u a _ hs ih =>
      rcases log_step hs with ⟨h1, h2⟩ | ⟨c, req, h1, h2⟩
      · rw [h1, h2]; exact ih
      · rw [h1, h2, List.map_append]
        exact Gave.snoc.2 ⟨_, ih, rfl, rfl⟩
  · intro c k hk
    exact slot_log (guarded_atomically h) hr hk

/-- C56: and that order respects time: it only grows, so a request answered at one moment stands
before every request that is still to be read. -/
theorem C56_real_time {h : Handler τ} {w w' : World (Atomic τ)} (hr : Run (atomically h) w w') :
    w.state.log <+: w'.state.log := by
  induction hr with
  | refl => exact List.prefix_refl _
  | tail v u a _ hs ih =>
    rcases log_step hs with ⟨h1, _⟩ | ⟨c, req, h1, _⟩
    · rw [h1]; exact ih
    · rw [h1]; exact ih.trans (List.prefix_append _ _)

/-- C56: with an atomic handler a connection's pending request can be answered at once, whatever
the other connections are doing and without their taking part. -/
theorem C56_answerable {h : Handler τ} {t : τ} {w : World (Atomic τ)}
    (hr : Run (atomically h) (.init (.init t)) w) (up : w.down = false)
    {c : Nat} {k : Conn} (hk : w.conns c = some k) (ho : k.fin = none)
    {q : Protocol} {req : Request} (hb : k.busy = some (q, req)) :
    ∃ w' k' x, Run (atomically h) w w' ∧ w'.conns c = some k' ∧ k'.done = k.done ++ [(req, x)]
      ∧ ∀ d, d ≠ c → w'.conns d = w.conns d := by
  have fin : ∀ (v : World (Atomic τ)) (x : Res (List Response)), v.down = false → v.conns = w.conns →
      v.state.ready c = some x →
      ∃ w' k', Step (atomically h) v (.conn c) w' ∧ w'.conns c = some k' ∧ k'.done = k.done ++ [(req, x)]
        ∧ ∀ d, d ≠ c → w'.conns d = w.conns d := by
    intro v x hu hc hx
    obtain ⟨w', k', h1, h2, h3, _⟩ := C56_no_blocking_return (H := atomically h) (w := v) hu
      (by rw [hc]; exact hk) ho hb (x := x) ⟨hx, rfl⟩
    refine ⟨w', k', h1, h2, h3, fun d hd => ?_⟩
    rw [← hc]
    cases h1 <;> simp [World.put, hd]
  have := slot_run (guarded_atomically h) hr c
  rw [hk] at this
  simp only [Slot, hb] at this
  rcases this with ⟨h1, _, _⟩ | ⟨x, _, h1, _⟩
  · have hs := Step.work (H := atomically h) w _ up ⟨c, req, h1, rfl⟩
    obtain ⟨v, hv⟩ : ∃ v : World (Atomic τ), v = { w with state :=
        { own := (h w.state.own req).2
          waiting := fun d => if d = c then none else w.state.waiting d
          ready := fun d => if d = c then some (h w.state.own req).1 else w.state.ready d
          log := w.state.log ++ [(c, req, (h w.state.own req).1)] } } := ⟨_, rfl⟩
    rw [← hv] at hs
    obtain ⟨w', k', a, b, d, e⟩ := fin v (h w.state.own req).1 (by rw [hv]; exact up) (by rw [hv])
      (by rw [hv]; simp)
    exact ⟨w', k', _, .tail _ _ _ (.tail _ _ _ .refl hs) a, b, d, e⟩
  · obtain ⟨w', k', a, b, d, e⟩ := fin w x up rfl h1
    exact ⟨w', k', _, .tail _ _ _ .refl a, b, d, e⟩

/-! ### The hypotheses are met -/

/-- A handler that counts its calls and finds nothing. -/
def counting : Handler Nat := fun n _ => (.ok [], n + 1)

/-- The request `get a`. -/
def getAReq : Request := { opcode := opGet, key := b!"a" }

theorem getA_read : readRequest none b!"get a\r\n" = (.ok (.ascii, getAReq), []) := by decide +kernel

/-- Two connections: the first sends `get a` and hangs up, the second sends `set a 0 0 -2`. The
first is served and closed; the second is about to be read. -/
theorem two_connections : ∃ w : World (Atomic Nat), Run (atomically counting) (.init (.init 0)) w ∧
    w.down = false ∧
    w.conns 0 = some ⟨some .ascii, b!"get a\r\n", [], true, none, [(getAReq, .ok [])], b!"END\r\n", some .served⟩ ∧
    w.conns 1 = some ⟨none, b!"set a 0 0 -2\r\n", b!"set a 0 0 -2\r\n", false, none, [], [], none⟩ := by
  have r1 := Run.tail _ _ _ (.refl (H := atomically counting) (w := World.init (Atomic.init 0)))
    (.accept _ 0 rfl rfl rfl)
  have r2 := Run.tail _ _ _ r1 (.accept _ 1 rfl rfl rfl)
  have r3 := Run.tail _ _ _ r2 (.arrive _ 0 _ b!"get a\r\n" rfl rfl rfl)
  have r4 := Run.tail _ _ _ r3 (.arrive _ 1 _ b!"set a 0 0 -2\r\n" rfl rfl rfl)
  have r5 := Run.tail _ _ _ r4 (.read _ 0 _ .ascii getAReq [] rfl rfl rfl rfl getA_read)
  have r6 := Run.tail _ _ _ r5 (.work _ _ rfl ⟨0, getAReq, rfl, rfl⟩)
  have r7 := Run.tail _ _ _ r6 (.answer _ 0 _ .ascii getAReq [] _ b!"END\r\n" rfl rfl rfl rfl
    ⟨rfl, rfl⟩ (by decide +kernel))
  have r8 := Run.tail _ _ _ r7 (.hangup _ 0 _ rfl rfl rfl)
  have r9 := Run.tail _ _ _ r8 (.bad _ 0 _ .io [] rfl rfl rfl rfl (by decide +kernel) (.inr rfl))
  exact ⟨_, r9, rfl, rfl, rfl⟩

/-- C56 on that run: the first connection's session, and the crash the second one causes. -/
example : ∃ w : World (Atomic Nat), Run (atomically counting) (.init (.init 0)) w ∧
    serve counting none 0 b!"get a\r\n" = ⟨[getAReq], b!"END\r\n", 1, .closed⟩ ∧
    (∃ w', Step (atomically counting) w (.conn 1) w') ∧
    ∀ w', Step (atomically counting) w (.conn 1) w' → w'.down = true := by
  obtain ⟨w, hr, up, h0, h1⟩ := two_connections
  refine ⟨w, hr, C56_session hr h0 rfl (h := counting) (t := 0) ⟨rfl, rfl⟩, ?_⟩
  refine C56_crash up h1 rfl rfl (q := .ascii) (.inr ⟨rfl, rfl⟩) ?_
  exact (C38_parse .ascii _).1 ⟨[], by decide +kernel⟩

/-- One connection in the handler, another with half a request: the hypotheses of
`C56_caught_up`, `C56_no_blocking_return`, `C56_answerable`. -/
example : ∃ w : World (Atomic Nat), Run (atomically counting) (.init (.init 0)) w ∧ w.down = false ∧
    (∃ k, w.conns 0 = some k ∧ k.fin = none ∧ k.busy = some (.ascii, getAReq)) ∧
    (∃ k, w.conns 1 = some k ∧ k.fin = none ∧ k.busy = none ∧ Waiting k ∧ k.sent = b!"get") ∧
    (atomically counting).ret w.state 0 (.ok []) { w.state with ready := fun d => if d = 0 then none else w.state.ready d } := by
  have r1 := Run.tail _ _ _ (.refl (H := atomically counting) (w := World.init (Atomic.init 0)))
    (.accept _ 0 rfl rfl rfl)
  have r2 := Run.tail _ _ _ r1 (.accept _ 1 rfl rfl rfl)
  have r3 := Run.tail _ _ _ r2 (.arrive _ 0 _ b!"get a\r\n" rfl rfl rfl)
  have r4 := Run.tail _ _ _ r3 (.arrive _ 1 _ b!"get" rfl rfl rfl)
  have r5 := Run.tail _ _ _ r4 (.read _ 0 _ .ascii getAReq [] rfl rfl rfl rfl getA_read)
  have r6 := Run.tail _ _ _ r5 (.work _ _ rfl ⟨0, getAReq, rfl, rfl⟩)
  exact ⟨_, r6, rfl, ⟨_, rfl, rfl, rfl⟩, ⟨_, rfl, rfl, rfl, ⟨rfl, by decide +kernel⟩, rfl⟩, rfl, rfl⟩

end Props
end Verif
