import Verif.Lemmas.Write
import Verif.Spec.Writing
/-!
C76: the write side.  Requests and replies go through a `bufio.Writer` to a connection whose writes may fail after any
number of bytes.
-/

namespace Verif
namespace Props
open Spec Put Puts

/-- Building the request works: the code writes exactly the request and flushes once, at the end. -/
def Whole (p : Proto) (i : Issue) : Prop :=
  ∃ qs w, (i.call p).wire = .ok w ∧ puts p i = qs ++ [.flush] ∧ noFlush qs ∧ ends qs = .ok () ∧ bytes qs = w ∧ w ≠ []

/-- It panics, with `gave p i` written. -/
def Broke (p : Proto) (i : Issue) : Prop :=
  (i.call p).wire = .panic ∧ ends (puts p i) = .panic ∧ bytes (puts p i) = gave p i

theorem bytes_append (ps qs : List Put) (h : ends ps = .ok ()) : bytes (ps ++ qs) = bytes ps ++ bytes qs := by
  induction ps with
  | nil => rfl
  | cons a ps ih => cases a <;> simp_all [ends, bytes]

theorem ends_append (ps qs : List Put) (h : ends ps = .ok ()) : ends (ps ++ qs) = ends qs := by
  induction ps with
  | nil => rfl
  | cons a ps ih => cases a <;> simp_all [ends]

theorem noFlush_append (ps qs : List Put) (h : noFlush ps) (h' : noFlush qs) : noFlush (ps ++ qs) := by
  induction ps with
  | nil => exact h'
  | cons a ps ih => cases a <;> simp_all [noFlush]

theorem getKQs_shape (h : Bin.ReqHdr) (ks : List Bytes) :
    noFlush (Puts.Bin.getKQs h ks) ∧ ends (Puts.Bin.getKQs h ks) = .ok ()
      ∧ bytes (Puts.Bin.getKQs h ks) = (Verif.Bin.getKQs h ks).1 := by
  induction ks generalizing h with
  | nil => exact ⟨trivial, rfl, rfl⟩
  | cons k ks ih =>
    obtain ⟨a, b, c⟩ := ih (Verif.Bin.getKQHdr h k)
    exact ⟨a, b, by simp [Puts.Bin.getKQs, bytes, Verif.Bin.getKQs, c]⟩

theorem mgs_shape (ks : List Bytes) :
    let ps := ks.map (fun key => Put.write (b!"mg " ++ key ++ b!" v f k c t\r\n"))
    noFlush ps ∧ ends ps = .ok () ∧ bytes ps = ks.flatMap (fun key => b!"mg " ++ key ++ b!" v f k c t\r\n") := by
  induction ks with
  | nil => exact ⟨trivial, rfl, rfl⟩
  | cons k ks ih =>
    obtain ⟨a, b, c⟩ := ih
    refine ⟨a, b, ?_⟩
    simp only [List.map_cons, bytes, List.flatMap_cons]
    rw [c]

theorem encode_ne (h : Bin.ReqHdr) : h.encode ≠ [] := by simp [Bin.ReqHdr.encode]

theorem binStore_shape (h : Bin.ReqHdr) (op : UInt8) (it : Item) :
    (∃ qs w, Verif.Bin.storeWire h op it = .ok w ∧ Puts.Bin.store h op it = qs ++ [.flush] ∧ noFlush qs
      ∧ ends qs = .ok () ∧ bytes qs = w ∧ w ≠ [])
    ∨ (Verif.Bin.storeWire h op it = .panic ∧ ends (Puts.Bin.store h op it) = .panic
      ∧ bytes (Puts.Bin.store h op it) = (Bin.storeHdr h op it).encode) := by
  unfold Puts.Bin.store Verif.Bin.storeWire
  have hne : ∀ e, Bin.storeExtra it ≠ .err e := by
    intro e he
    unfold Bin.storeExtra at he
    cases hf : it.flags with
    | none => rw [hf] at he; cases he
    | some f =>
      rw [hf] at he
      unfold sliceTo at he
      by_cases hl : (0 : Int) ≤ 4 ∧ (4 : Int) ≤ (f.length : Int)
      · simp only [if_pos hl] at he; cases he
      · simp only [if_neg hl] at he; cases he
  cases hx : Bin.storeExtra it with
  | ok ex =>
    left
    refine ⟨[.write _, .write' ex, .write' it.key, .write' it.value], _, rfl, rfl, trivial, rfl, ?_, ?_⟩
    · simp [bytes, List.append_assoc]
    · simp [Bin.ReqHdr.encode]
  | err e => exact absurd hx (hne e)
  | panic =>
    right
    exact ⟨rfl, rfl, by simp [bytes]⟩

theorem metaSet_shape (it : Item) :
    (∃ qs w, Verif.Meta.setWire it = .ok w ∧ Puts.Meta.set it = qs ++ [.flush] ∧ noFlush qs
      ∧ ends qs = .ok () ∧ bytes qs = w ∧ w ≠ [])
    ∨ (Verif.Meta.setWire it = .panic ∧ ends (Puts.Meta.set it) = .panic ∧ bytes (Puts.Meta.set it) = []) := by
  unfold Puts.Meta.set Verif.Meta.setWire
  cases hf : it.flags with
  | none =>
    left
    refine ⟨[.write _, .write _], _, rfl, rfl, trivial, rfl, ?_, ?_⟩
    · simp [bytes]
    · simp
  | some f =>
    have hb : beUint 4 f = .ok (getBE (f.take 4)) ∨ beUint 4 f = .panic := by
      unfold beUint
      split
      · exact .inl rfl
      · exact .inr rfl
    rcases hb with hb | hb
    · left
      simp only [hb, Res.map]
      refine ⟨[.write _, .write _], _, rfl, rfl, trivial, rfl, ?_, ?_⟩
      · simp [bytes]
      · simp
    · right
      simp only [hb, Res.map]
      exact ⟨rfl, rfl, rfl⟩

theorem whole_single {p : Proto} {i : Issue} {w : Bytes} (hw : (i.call p).wire = .ok w)
    (hp : puts p i = [.write w, .flush]) (h0 : w ≠ []) : Whole p i :=
  ⟨[.write w], w, hw, hp, trivial, rfl, by simp [bytes], h0⟩

theorem puts_shape (p : Proto) (i : Issue) : Whole p i ∨ Broke p i := by
  obtain ⟨a, h1, h2⟩ := i
  have bin : ∀ op it, (∀ w, ((⟨a, h1, h2⟩ : Issue).call p).wire = w ↔ Verif.Bin.storeWire h1 op it = w) →
      puts p ⟨a, h1, h2⟩ = Puts.Bin.store h1 op it →
      (((⟨a, h1, h2⟩ : Issue).call p).wire = .panic → gave p ⟨a, h1, h2⟩ = (Bin.storeHdr h1 op it).encode) →
      Whole p ⟨a, h1, h2⟩ ∨ Broke p ⟨a, h1, h2⟩ := by
    intro op it hw hp hg
    unfold Whole Broke
    rw [hp]
    rcases binStore_shape h1 op it with ⟨qs, w, e, r⟩ | ⟨e, r1, r2⟩
    · exact .inl ⟨qs, w, (hw _).2 e, r⟩
    · exact .inr ⟨(hw _).2 e, r1, by rw [r2, hg ((hw _).2 e)]⟩
  have store : ∀ cmd it, cmd ≠ [] → ((⟨a, h1, h2⟩ : Issue).call p).wire = .ok (Verif.Text.storeWire cmd it) →
      puts p ⟨a, h1, h2⟩ = Puts.Text.store cmd it → Whole p ⟨a, h1, h2⟩ := by
    intro cmd it hc hw hp
    refine ⟨[.write _, .write' it.value, .write' crlf], _, hw, hp, trivial, rfl, ?_, ?_⟩
    · simp [bytes, Verif.Text.storeWire]
    · simp [Verif.Text.storeWire]
  cases p with
  | text name =>
    left
    cases a with
    | version => exact ⟨[.string b!"version\r\n"], _, rfl, rfl, trivial, rfl, rfl, by decide⟩
    | op o =>
      cases o with
      | get k => exact whole_single rfl rfl (by simp)
      | getMulti ks => exact whole_single rfl rfl (by simp)
      | set it =>
        obtain ⟨l, e, w⟩ : ∃ l, Puts.Text.set it = [.write l, .write (it.value ++ crlf), .flush]
            ∧ Verif.Text.setWire it = l ++ (it.value ++ crlf) := by
          unfold Puts.Text.set Verif.Text.setWire
          by_cases hc : 0 < it.cas
          · rw [if_pos hc, if_pos hc]; exact ⟨_, rfl, rfl⟩
          · rw [if_neg hc, if_neg hc]; exact ⟨_, rfl, rfl⟩
        exact ⟨[.write l, .write (it.value ++ crlf)], Verif.Text.setWire it, rfl, e, trivial, rfl,
          by rw [w]; simp [bytes], by rw [w]; simp [crlf]⟩
      | add it => exact store b!"add" it (by decide) rfl rfl
      | replace it => exact store b!"replace" it (by decide) rfl rfl
      | delete k => exact whole_single rfl rfl (by simp)
      | increment k d e => exact whole_single rfl rfl (by simp)
      | decrement k d e => exact whole_single rfl rfl (by simp)
      | touch k e => exact whole_single rfl rfl (by simp)
      | flush => exact whole_single rfl rfl (by decide)
  | metap =>
    cases a with
    | version => exact .inl ⟨[.string b!"version\r\n"], _, rfl, rfl, trivial, rfl, rfl, by decide⟩
    | op o =>
      cases o with
      | get k => exact .inl (whole_single rfl rfl (by simp))
      | getMulti ks =>
        left
        obtain ⟨a, b, c⟩ := mgs_shape ks
        refine ⟨ks.map (fun key => Put.write (b!"mg " ++ key ++ b!" v f k c t\r\n")) ++ [.string' b!"mn\r\n"], _, rfl, ?_,
          noFlush_append _ _ a (by exact trivial), by rw [ends_append _ _ b]; rfl, ?_, by simp⟩
        · show Puts.Meta.getMulti ks = _
          unfold Puts.Meta.getMulti; rw [List.append_assoc]; rfl
        · rw [bytes_append _ _ b, c]; simp [bytes]
      | set it =>
        rcases metaSet_shape it with h | ⟨h, e, b⟩
        · exact .inl h
        · refine .inr ⟨h, e, b.trans ?_⟩
          show [] = gave .metap ⟨.op (.set it), h1, h2⟩
          unfold gave
          rw [show ((⟨.op (.set it), h1, h2⟩ : Issue).call .metap).wire = .panic from h]
      | add it => exact .inl (store b!"add" it (by decide) rfl rfl)
      | replace it => exact .inl (store b!"replace" it (by decide) rfl rfl)
      | delete k => exact .inl (whole_single rfl rfl (by simp))
      | increment k d e => exact .inl (whole_single rfl rfl (by simp))
      | decrement k d e => exact .inl (whole_single rfl rfl (by simp))
      | touch k e => exact .inl (whole_single rfl rfl (by simp))
      | flush => exact .inl (whole_single rfl rfl (by decide))
  | binary =>
    cases a with
    | version => exact .inl (whole_single rfl rfl (encode_ne _))
    | op o =>
      cases o with
      | get k => exact .inl ⟨[.write _, .write' k], _, rfl, rfl, trivial, rfl, by simp [bytes], by simp [Bin.ReqHdr.encode]⟩
      | getMulti ks =>
        left
        obtain ⟨a, b, c⟩ := getKQs_shape h1 ks
        refine ⟨Puts.Bin.getKQs h1 ks ++ [.write (Verif.Bin.noopHdr h2).encode], _, rfl, ?_,
          noFlush_append _ _ a (by exact trivial), by rw [ends_append _ _ b]; rfl, ?_, by simp [Bin.ReqHdr.encode]⟩
        · show Puts.Bin.getMulti h1 h2 ks = _
          unfold Puts.Bin.getMulti; rw [List.append_assoc]; rfl
        · rw [bytes_append _ _ b, c]; simp [bytes]
      | set it => exact bin Verif.Bin.opSet it (fun _ => Iff.rfl) rfl (fun h => by unfold gave; rw [h])
      | add it => exact bin Verif.Bin.opAdd it (fun _ => Iff.rfl) rfl (fun h => by unfold gave; rw [h])
      | replace it => exact bin Verif.Bin.opReplace it (fun _ => Iff.rfl) rfl (fun h => by unfold gave; rw [h])
      | delete k => exact .inl ⟨[.write _, .write' k], _, rfl, rfl, trivial, rfl, by simp [bytes], by simp [Bin.ReqHdr.encode]⟩
      | increment k d e =>
        exact .inl ⟨[.write _, .write' _, .write' k], _, rfl, rfl, trivial, rfl, by simp [bytes], by simp [Bin.ReqHdr.encode]⟩
      | decrement k d e =>
        exact .inl ⟨[.write _, .write' _, .write' k], _, rfl, rfl, trivial, rfl, by simp [bytes], by simp [Bin.ReqHdr.encode]⟩
      | touch k e =>
        exact .inl ⟨[.write _, .write' _, .write' k], _, rfl, rfl, trivial, rfl, by simp [bytes], by simp [Bin.ReqHdr.encode]⟩
      | flush => exact .inl (whole_single rfl rfl (encode_ne _))

theorem puts_bytes (p : Proto) (i : Issue) : bytes (puts p i) = gave p i := by
  rcases puts_shape p i with ⟨qs, w, hw, hp, _, he, hb, _⟩ | ⟨_, _, hb⟩
  · rw [hp, bytes_append _ _ he, hb]
    unfold gave
    rw [hw]; simp [bytes]
  · exact hb

/-- What the operations so far mean for the writer. -/
def Track (t : Bytes) (l : Link) : Prop := Writer.Holds t l.out ∧ Writer.Logged l.out

theorem operate_out (p : Proto) (i : Issue) (more : Bytes) (l : Link) :
    (operate p i more l).2.out = (Put.run (puts p i) l.out).2 := by
  unfold operate
  split <;> rename_i h <;> rw [h]

theorem operate_track {p : Proto} {i : Issue} {more t : Bytes} {l : Link} (h : Track t l) :
    Track (t ++ gave p i) (operate p i more l).2 := by
  unfold Track
  rw [operate_out, ← puts_bytes]
  exact ⟨run_holds _ _ _ h.1, run_logged _ _ h.2⟩

theorem operateAll_track {p : Proto} (is : List (Issue × Bytes)) {t : Bytes} {l : Link} (h : Track t l) :
    Track (t ++ handed p is) (operateAll p is l).2 := by
  induction is generalizing t l with
  | nil => simpa [handed, operateAll] using h
  | cons a is ih =>
    obtain ⟨i, more⟩ := a
    have := ih (operate_track (p := p) (i := i) (more := more) h)
    simpa [handed, operateAll] using this

theorem track_new (fs : List Fate) : Track [] (newLink fs) := ⟨Writer.holds_fresh fs, Writer.logged_fresh fs⟩

theorem broken_iff {t : Bytes} {l : Link} (h : Track t l) : Broken l ↔ l.out.failed = true :=
  (Writer.logged_iff h.2).symm

/-- **C76 (prefix).** After any operations on a connection, however its writes went, the peer has received a prefix of
the requests in the order of the operations: nothing is reordered, repeated, skipped or made up. -/
theorem C76_prefix (p : Proto) (fs : List Fate) (is : List (Issue × Bytes)) :
    (operateAll p is (newLink fs)).2.out.net.sent <+: handed p is :=
  (operateAll_track (p := p) is (track_new fs)).1.2.1

/-- One operation after any others. -/
theorem operate_cases (p : Proto) (i : Issue) (more t : Bytes) (l : Link) (h : Track t l) :
    (∃ w, (i.call p).wire = .ok w ∧ (operate p i more l).2.out.net.sent = t ++ w
        ∧ (operate p i more l).2.out.failed = false ∧ (operate p i more l).2.out.buf = []
        ∧ (operate p i more l).1 = ((i.call p).rd (l.unread ++ more)).1
        ∧ (operate p i more l).2.unread = ((i.call p).rd (l.unread ++ more)).2)
    ∨ ((operate p i more l).1 = .err .io ∧ (operate p i more l).2.unread = l.unread ++ more
        ∧ (operate p i more l).2.out.failed = true)
    ∨ ((operate p i more l).1 = .panic ∧ (i.call p).wire = .panic ∧ (operate p i more l).2.unread = l.unread ++ more) := by
  have ht := operate_track (p := p) (i := i) (more := more) h
  have ho := operate_out p i more l
  have fails : ∀ (ps : List Put) (b : Writer), (Put.run ps b).1 = .err .io → ends ps ≠ .err .io →
      (Put.run ps b).2.failed = true := by
    intro ps
    induction ps with
    | nil => intro b h; cases h
    | cons a ps ih =>
      intro b h he
      have chk : ∀ c : Writer, (checked c (Put.run ps)).1 = .err .io → ends ps ≠ .err .io →
          (checked c (Put.run ps)).2.failed = true := by
        intro c h he
        unfold checked at h ⊢
        split
        · assumption
        · rename_i hf; rw [if_neg hf] at h; exact ih c h he
      cases a with
      | write p => exact chk _ h he
      | write' p => exact ih _ h he
      | string p => exact chk _ h he
      | string' p => exact ih _ h he
      | flush => exact chk _ h he
      | fail e => exact absurd h he
      | panic => cases h
  rcases puts_shape p i with ⟨qs, w, hw, hp, _, he, hb, _⟩ | ⟨hw, he, hb⟩
  · have hends : ends (puts p i) = .ok () := by rw [hp, ends_append _ _ he]; rfl
    rcases Put.run_outcome (puts p i) l.out with hr | hr
    · right; left
      have hf := fails _ _ hr (by rw [hends]; intro h; cases h)
      refine ⟨?_, ?_, by rw [ho]; exact hf⟩
      · unfold operate
        split <;> rename_i e <;> rw [e] at hr <;> simp_all
      · unfold operate
        split <;> rename_i e <;> rw [e] at hr <;> simp_all
    · left
      rw [hends] at hr
      have hfl := run_flushed qs l.out (by rw [← hp]; exact hr)
      rw [← hp, ← ho] at hfl
      have hs := ht.1.1 hfl.1
      rw [hfl.2, List.append_nil] at hs
      refine ⟨w, hw, ?_, hfl.1, hfl.2, ?_, ?_⟩
      · rw [hs]; unfold gave; rw [hw]
      · unfold operate
        split <;> rename_i e <;> rw [e] at hr <;> simp_all
      · unfold operate
        split <;> rename_i e <;> rw [e] at hr <;> simp_all
  · rcases Put.run_outcome (puts p i) l.out with hr | hr
    · right; left
      have hf := fails _ _ hr (by rw [he]; intro h; cases h)
      refine ⟨?_, ?_, by rw [ho]; exact hf⟩
      · unfold operate
        split <;> rename_i e <;> rw [e] at hr <;> simp_all
      · unfold operate
        split <;> rename_i e <;> rw [e] at hr <;> simp_all
    · right; right
      rw [he] at hr
      refine ⟨?_, hw, ?_⟩
      · unfold operate
        split <;> rename_i e <;> rw [e] at hr <;> simp_all
      · unfold operate
        split <;> rename_i e <;> rw [e] at hr <;> simp_all

/-- **C76 (each operation).** After any operations on a connection, however its writes go, the next operation either has
delivered its whole request, and with it everything before, and its result is its reading of the reply; or a write has
failed, then it returns an error without having read anything; or it panicked while building its request and has read
nothing. -/
theorem C76_each (p : Proto) (fs : List Fate) (is : List (Issue × Bytes)) (i : Issue) (more : Bytes) :
    let l := (operateAll p is (newLink fs)).2
    let q := operate p i more l
    (∃ w, (i.call p).wire = .ok w ∧ q.2.out.net.sent = handed p is ++ w ∧ ¬ Broken q.2
        ∧ (q.1, q.2.unread) = (i.call p).rd (l.unread ++ more))
    ∨ (q.1 = .err .io ∧ q.2.unread = l.unread ++ more ∧ Broken q.2)
    ∨ (q.1 = .panic ∧ (i.call p).wire = .panic ∧ q.2.unread = l.unread ++ more) := by
  intro l q
  have h : Track (handed p is) l := by simpa using operateAll_track (p := p) is (track_new fs)
  have hq : Track _ q.2 := operate_track (p := p) (i := i) (more := more) h
  rcases operate_cases p i more _ l h with ⟨w, hw, hs, hf, _, h1, h2⟩ | ⟨h1, h2, hf⟩ | h3
  · refine .inl ⟨w, hw, hs, ?_, ?_⟩
    · rw [broken_iff hq]; rw [show q.2.out.failed = false from hf]; simp
    · rw [show q.1 = _ from h1, show q.2.unread = _ from h2]
  · exact .inr (.inl ⟨h1, h2, (broken_iff hq).2 hf⟩)
  · exact .inr (.inr h3)

/-- **C76 (success).** An operation that returned without error, or that read a byte of a reply, has delivered its whole
request and every request before it. -/
theorem C76_success (p : Proto) (fs : List Fate) (is : List (Issue × Bytes)) (i : Issue) (more : Bytes) :
    let l := (operateAll p is (newLink fs)).2
    let q := operate p i more l
    ((∃ a, q.1 = .ok a) ∨ q.2.unread ≠ l.unread ++ more) →
    ∃ w, (i.call p).wire = .ok w ∧ q.2.out.net.sent = handed p is ++ w := by
  intro l q hq
  rcases C76_each p fs is i more with ⟨w, hw, hs, _⟩ | ⟨h1, h2, _⟩ | ⟨h1, _, h2⟩
  · exact ⟨w, hw, hs⟩
  · rcases hq with ⟨a, ha⟩ | hu
    · rw [show q.1 = _ from h1] at ha; cases ha
    · exact absurd h2 hu
  · rcases hq with ⟨a, ha⟩ | hu
    · rw [show q.1 = _ from h1] at ha; cases ha
    · exact absurd h2 hu

theorem dead_operate (p : Proto) (i : Issue) (more : Bytes) (l : Link) (hf : l.out.failed = true) :
    (operate p i more l).2 = ⟨l.out, l.unread ++ more⟩
      ∧ ((operate p i more l).1 = .err .io ∨ (operate p i more l).1 = .panic ∧ (i.call p).wire = .panic) := by
  obtain ⟨h1, h2⟩ := Put.run_failed (puts p i) l.out hf
  rcases puts_shape p i with ⟨qs, w, hw, hp, _, he, hb, _⟩ | ⟨hw, he, hb⟩
  · have hne : (Put.run (puts p i) l.out).1 ≠ .ok () := by
      intro h
      have := (run_flushed qs l.out (by rw [← hp]; exact h)).1
      rw [← hp, h1, hf] at this
      cases this
    have hends : ends (puts p i) = .ok () := by rw [hp, ends_append _ _ he]; rfl
    have hr : (Put.run (puts p i) l.out).1 = .err .io := by
      rcases h2 with h | h
      · exact h
      · rw [hends] at h; exact absurd h hne
    unfold operate
    split <;> rename_i e <;> rw [e] at hr h1 <;> simp_all
  · rw [he] at h2
    unfold operate
    split <;> rename_i e <;> rw [e] at h2 h1 <;> simp_all

/-- **C76 (sticky).** Once a write on the connection has failed, no operation delivers or reads anything any more: each
one returns an error (or panics on an argument it always panics on), nothing is written, what arrives stays unread.
Only a new connection helps. -/
theorem C76_sticky (p : Proto) (fs : List Fate) (is js : List (Issue × Bytes)) :
    let l := (operateAll p is (newLink fs)).2
    Broken l →
    (operateAll p js l).2.out.net = l.out.net
      ∧ (operateAll p js l).2.unread = l.unread ++ js.flatMap (·.2)
      ∧ (operateAll p js l).1.length = js.length
      ∧ ∀ x ∈ js.zip (operateAll p js l).1, x.2 = .err .io ∨ x.2 = .panic ∧ (x.1.1.call p).wire = .panic := by
  intro l hb
  have h : Track (handed p is) l := by simpa using operateAll_track (p := p) is (track_new fs)
  have hf := (broken_iff h).1 hb
  clear hb h
  generalize l = m at hf
  induction js generalizing m with
  | nil => simp [operateAll]
  | cons a js ih =>
    obtain ⟨i, more⟩ := a
    obtain ⟨e, r⟩ := dead_operate p i more m hf
    obtain ⟨h1, h2, h3, h4⟩ := ih ⟨m.out, m.unread ++ more⟩ hf
    simp only [operateAll, e]
    refine ⟨h1, ?_, by simp [h3], ?_⟩
    · rw [h2]; simp
    · intro x hx
      simp only [List.zip_cons_cons, List.mem_cons] at hx
      rcases hx with rfl | hx
      · exact r
      · exact h4 x hx

/-- **C76 (no write after a failure).** A failed `Write` is the last one made on the connection. -/
theorem C76_last (p : Proto) (fs : List Fate) (is : List (Issue × Bytes)) :
    let l := (operateAll p is (newLink fs)).2
    Broken l → ∃ ws w, l.out.net.writes = ws ++ [w] ∧ w.ok = false ∧ ∀ x ∈ ws, x.ok = true := by
  intro l hb
  have h : Track (handed p is) l := by simpa using operateAll_track (p := p) is (track_new fs)
  exact Writer.logged_failed h.2 ((broken_iff h).1 hb)

theorem sound_operate {p : Proto} {i : Issue} {more : Bytes} {l : Link} (h : Writer.Sound l.out) :
    Writer.Sound (operate p i more l).2.out := by
  rw [operate_out]; exact run_sound _ _ h

/-- **C76 (no failure).** As long as no write fails the buffer makes no difference: the operations have the results they
have without one, the connection is never broken, and when no operation panics the peer has received all requests. -/
theorem C76_same (p : Proto) (fs : List Fate) (hfs : ∀ f ∈ fs, f = .all) (is : List (Issue × Bytes)) :
    let q := operateAll p is (newLink fs)
    (q.1, q.2.unread) = unbuffered p is [] ∧ ¬ Broken q.2
      ∧ ((∀ x ∈ is, ∃ w, (x.1.call p).wire = .ok w) → q.2.out.net.sent = handed p is) := by
  have key : ∀ (is : List (Issue × Bytes)) (l : Link) (t : Bytes), Track t l → Writer.Sound l.out →
      ((operateAll p is l).1, (operateAll p is l).2.unread) = unbuffered p is l.unread
        ∧ Writer.Sound (operateAll p is l).2.out
        ∧ ((∀ x ∈ is, ∃ w, (x.1.call p).wire = .ok w) → l.out.buf = [] → (operateAll p is l).2.out.buf = []) := by
    intro is
    induction is with
    | nil => intro l t _ h; exact ⟨rfl, h, fun _ h => h⟩
    | cons a is ih =>
      obtain ⟨i, more⟩ := a
      intro l t ht hs
      have ht' := operate_track (p := p) (i := i) (more := more) ht
      have hs' := sound_operate (p := p) (i := i) (more := more) hs
      obtain ⟨e1, e2, e3⟩ := ih _ _ ht' hs'
      have hc := operate_cases p i more t l ht
      have e4 : (operate p i more l).1 = (alone p i (l.unread ++ more)).1
          ∧ (operate p i more l).2.unread = (alone p i (l.unread ++ more)).2 := by
        unfold alone
        rcases hc with ⟨w, hw, _, _, _, h1, h2⟩ | ⟨_, _, hf⟩ | ⟨h1, hw, h2⟩
        · rw [hw]; exact ⟨h1, h2⟩
        · rw [hs'.1] at hf; cases hf
        · rw [hw]; exact ⟨h1, h2⟩
      refine ⟨?_, e2, ?_⟩
      · simp only [operateAll, unbuffered]
        rw [← e4.1, ← e4.2]
        rw [Prod.mk.injEq]
        rw [Prod.ext_iff] at e1
        exact ⟨by rw [← e1.1], e1.2⟩
      · intro ha _
        refine e3 (fun x hx => ha x (List.mem_cons_of_mem _ hx)) ?_
        obtain ⟨w, hw⟩ := ha _ List.mem_cons_self
        rcases hc with ⟨w, _, _, _, hb, _⟩ | ⟨_, _, hf⟩ | ⟨_, hw', _⟩
        · exact hb
        · rw [hs'.1] at hf; cases hf
        · have hw : (i.call p).wire = .ok w := hw
          rw [hw] at hw'; cases hw'
  intro q
  obtain ⟨h1, h2, h3⟩ := key is (newLink fs) [] (track_new fs) ⟨rfl, hfs⟩
  have ht : Track (handed p is) q.2 := by simpa using operateAll_track (p := p) is (track_new fs)
  refine ⟨h1, ?_, fun ha => ?_⟩
  · rw [broken_iff ht]; rw [show q.2.out.failed = false from h2.1]; simp
  · have := ht.1.1 h2.1
    rw [show q.2.out.buf = [] from h3 ha rfl, List.append_nil] at this
    exact this

/-- **C76 (one write).** A request of at most 4096 bytes goes to the connection with a single `Write` of all of it (when
no operation before panicked and no write failed): it is delivered in part only if that `Write` itself fails half-way, and
then the operation returns an error. -/
theorem C76_one_write (p : Proto) (fs : List Fate) (is : List (Issue × Bytes)) (i : Issue) (more w : Bytes)
    (hw : (i.call p).wire = .ok w) (hl : w.length ≤ 4096) (ha : ∀ x ∈ is, ∃ w, (x.1.call p).wire = .ok w) :
    let l := (operateAll p is (newLink fs)).2
    let q := operate p i more l
    ¬ Broken l →
    ∃ x, q.2.out.net.writes = l.out.net.writes ++ [x] ∧ x.bytes <+: w ∧ (x.ok = true → x.bytes = w)
      ∧ (x.ok = false → q.1 = .err .io) := by
  intro l q hb
  have h : Track (handed p is) l := by simpa using operateAll_track (p := p) is (track_new fs)
  have hf : l.out.failed = false := by
    cases hf : l.out.failed with
    | false => rfl
    | true => exact absurd ((broken_iff h).2 hf) hb
  have hbuf : ∀ (is : List (Issue × Bytes)) (m : Link) (t : Bytes), Track t m → m.out.buf = [] →
      (∀ x ∈ is, ∃ w, (x.1.call p).wire = .ok w) → (operateAll p is m).2.out.failed = false →
      (operateAll p is m).2.out.buf = [] := by
    intro is
    induction is with
    | nil => intro m t _ h _ _; exact h
    | cons a is ih =>
      obtain ⟨i, more⟩ := a
      intro m t ht h0 ha hf
      have hd : (operate p i more m).2.out.failed = false := by
        cases hx : (operate p i more m).2.out.failed with
        | false => rfl
        | true =>
          have : ∀ (js : List (Issue × Bytes)) (m : Link), m.out.failed = true → (operateAll p js m).2.out.failed = true := by
            intro js
            induction js with
            | nil => intro m h; exact h
            | cons b js ih =>
              intro m h
              have e := (dead_operate p b.1 b.2 m h).1
              refine ih _ ?_
              rw [e]; exact h
          have hx' := this is _ hx
          have hf' : (operateAll p is (operate p i more m).2).2.out.failed = false := hf
          rw [hf'] at hx'; cases hx'
      refine ih _ _ (operate_track ht) ?_ (fun x hx => ha x (List.mem_cons_of_mem _ hx)) hf
      rcases operate_cases p i more t m ht with ⟨_, _, _, _, hb, _⟩ | ⟨_, _, hx⟩ | ⟨_, hw', _⟩
      · exact hb
      · rw [hd] at hx; cases hx
      · obtain ⟨w, hw⟩ := ha _ List.mem_cons_self
        have hw : (i.call p).wire = .ok w := hw
        rw [hw] at hw'; cases hw'
  have hb0 : l.out.buf = [] := hbuf is _ _ (track_new fs) rfl ha hf
  rcases puts_shape p i with ⟨qs, w', hw', hp, hn, he, hbs, h0⟩ | ⟨hw', _, _⟩
  · rw [hw] at hw'
    injection hw' with hw'
    subst hw'
    rw [← hbs] at h0 hl
    obtain ⟨x, h1, h2, h3, h4⟩ := run_one qs l.out hf hb0 hn he h0 hl
    rw [hbs] at h2 h3
    rw [← hp] at h1 h4
    refine ⟨x, ?_, h3, h2, ?_⟩
    · rw [show q.2.out = _ from operate_out p i more l]; exact h1
    · intro hx
      rw [hx] at h4
      show (operate p i more l).1 = _
      have h4 : (Put.run (puts p i) l.out).1 = .err .io := h4
      unfold operate
      split <;> rename_i e <;> rw [e] at h4 <;> simp_all
  · rw [hw] at hw'; cases hw'

/-- A line and a block that together do not fit, on a connection that takes one `Write` and fails at the next. -/
theorem run_spill (a v : Bytes) (n : Nat) (ha : a ≠ []) (hl : a.length ≤ bufSize) (hv : bufSize < (a ++ v).length) :
    (Put.run [.write a, .write v, .flush] { net := { fates := [.all, .cut n] } }).1 = .err .io
      ∧ (Put.run [.write a, .write v, .flush] { net := { fates := [.all, .cut n] } }).2.net.sent = (a ++ v).take (bufSize + n) := by
  have e1 : ({ net := { fates := [.all, .cut n] } } : Writer).write a = { buf := a, net := { fates := [.all, .cut n] } } := by
    rw [Writer.write_fits rfl (by simpa using hl)]; simp
  have hlen : bufSize < a.length + v.length := by simpa using hv
  have full : a ++ v.take (bufSize - a.length) = (a ++ v).take bufSize := by
    rw [List.take_append, List.take_of_length_le hl]
  have hrest : v.drop (bufSize - a.length) = (a ++ v).drop bufSize := by
    rw [List.drop_append, List.drop_of_length_le hl, List.nil_append]
  have hne : (a ++ v).drop bufSize ≠ [] := by
    intro h; have := congrArg List.length h; rw [List.length_drop] at this; simp at this; omega
  have fl : Writer.fill v { buf := a, net := { fates := [.all, .cut n] } }
      = { buf := [], net := { writes := [⟨(a ++ v).take bufSize, true⟩], fates := [.cut n] } } := by
    unfold Writer.fill Writer.flush
    rw [full]
    have : (a ++ v).take bufSize ≠ [] := by
      intro h; have := congrArg List.length h; rw [List.length_take] at this; simp [bufSize] at this
      rcases this with ⟨h1, _⟩
      exact ha h1
    simp [this, Pipe.write]
  have sent2 : ∀ x : Bytes, x = (a ++ v).drop bufSize →
      ({ writes := [⟨(a ++ v).take bufSize, true⟩, ⟨x.take n, false⟩], fates := [] } : Pipe).sent = (a ++ v).take (bufSize + n) := by
    intro x hx
    unfold Pipe.sent
    simp only [List.flatMap_cons, List.flatMap_nil, List.append_nil]
    rw [hx, ← List.take_add]
  have e2 : (Writer.write { buf := a, net := { fates := [.all, .cut n] } } v)
      = Writer.write { buf := [], net := { writes := [⟨(a ++ v).take bufSize, true⟩], fates := [.cut n] } } ((a ++ v).drop bufSize) := by
    rw [Writer.write.eq_1]
    simp only [Bool.false_eq_true, dif_neg, not_false_eq_true, dite_false]
    rw [if_pos (show bufSize - a.length < v.length by omega), if_neg ha, fl, hrest]
  simp only [Put.run, e1, checked, Bool.false_eq_true, if_false]
  rw [e2]
  generalize hr : (a ++ v).drop bufSize = r at *
  by_cases hbig : bufSize < r.length
  · have e3 : Writer.write { buf := [], net := { writes := [⟨(a ++ v).take bufSize, true⟩], fates := [.cut n] } } r
        = { buf := [], failed := true, net := { writes := [⟨(a ++ v).take bufSize, true⟩, ⟨r.take n, false⟩], fates := [] } } := by
      rw [Writer.write.eq_1]
      simp only [Bool.false_eq_true, dite_false]
      rw [if_pos (show bufSize - ([] : Bytes).length < r.length by simpa using hbig), if_pos trivial]
      rw [Writer.write_failed (by rfl)]
      rfl
    rw [e3]
    exact ⟨rfl, sent2 r rfl⟩
  · have e3 : Writer.write { buf := [], net := { writes := [⟨(a ++ v).take bufSize, true⟩], fates := [.cut n] } } r
        = { buf := r, net := { writes := [⟨(a ++ v).take bufSize, true⟩], fates := [.cut n] } } := by
      rw [Writer.write_fits rfl (by simpa using hbig)]; simp
    rw [e3]
    have e4 : Writer.flush { buf := r, net := { writes := [⟨(a ++ v).take bufSize, true⟩], fates := [.cut n] } }
        = { buf := r.drop (min n r.length), failed := true, net := { writes := [⟨(a ++ v).take bufSize, true⟩, ⟨r.take n, false⟩], fates := [] } } := by
      unfold Writer.flush
      simp [hne, Pipe.write]
    rw [e4]
    exact ⟨rfl, sent2 r rfl⟩

/-- **C76 (large requests).** A text `Set` whose request does not fit into 4096 bytes is sent in at least two `Write`s: if
the second one fails, the operation returns an error although the peer has the first 4096 bytes (and `n` more). -/
theorem C76_large (name : Bytes) (it : Item) (h1 h2 : Bin.ReqHdr) (n : Nat) (more : Bytes)
    (hc : it.cas = 0) (hk : it.key.length ≤ 3000) (hn : it.value.length < 10 ^ 100) (he : it.expiration = 0)
    (hv : 4096 < it.value.length) :
    let q := operate (.text name) ⟨.op (.set it), h1, h2⟩ more (newLink [.all, .cut n])
    q.1 = .err .io ∧ q.2.out.net.sent = (Text.setWire it).take (4096 + n) ∧ q.2.unread = more := by
  intro q
  have hp : puts (.text name) ⟨.op (.set it), h1, h2⟩ = [.write (b!"set " ++ it.key ++ 32 :: natDec (Text.flagsNum it.flags)
      ++ 32 :: intDec it.expiration ++ 32 :: natDec it.value.length ++ crlf), .write (it.value ++ crlf), .flush] := by
    show Puts.Text.set it = _
    unfold Puts.Text.set
    rw [if_neg (by omega)]; rfl
  have hw : Text.setWire it = (b!"set " ++ it.key ++ 32 :: natDec (Text.flagsNum it.flags)
      ++ 32 :: intDec it.expiration ++ 32 :: natDec it.value.length ++ crlf) ++ (it.value ++ crlf) := by
    unfold Text.setWire
    rw [if_neg (by omega)]
  have l1 : (natDec (Text.flagsNum it.flags)).length ≤ 10 := by
    refine natDec_length _ _ (by decide) ?_
    unfold Text.flagsNum
    split
    · split
      · rename_i f hf hl
        have := getBE_lt f
        rw [hl] at this
        exact Nat.lt_of_lt_of_le this (by decide)
      · decide
    · decide
  have l2 : (natDec it.value.length).length ≤ 100 := natDec_length _ _ (by decide) hn
  have l3 : (intDec it.expiration).length = 1 := by rw [he]; decide +kernel
  obtain ⟨r1, r2⟩ := run_spill (b!"set " ++ it.key ++ 32 :: natDec (Text.flagsNum it.flags)
      ++ 32 :: intDec it.expiration ++ 32 :: natDec it.value.length ++ crlf) (it.value ++ crlf) n (by simp)
      (by simp only [List.length_append, List.length_cons, List.length_nil, bufSize, crlf]; omega)
      (by simp only [List.length_append, List.length_cons, List.length_nil, bufSize, crlf]; omega)
  rw [← hp] at r1 r2
  rw [← hw] at r2
  have ho : q.2.out = _ := operate_out (.text name) ⟨.op (.set it), h1, h2⟩ more (newLink [.all, .cut n])
  refine ⟨?_, by rw [ho]; exact r2, ?_⟩
  · show (operate _ _ _ _).1 = _
    unfold operate
    have r1' : (Put.run (puts (.text name) ⟨.op (.set it), h1, h2⟩) (newLink [.all, .cut n]).out).1 = .err .io := r1
    split <;> rename_i e <;> rw [e] at r1' <;> simp_all
  · show (operate _ _ _ _).2.unread = _
    unfold operate
    have r1' : (Put.run (puts (.text name) ⟨.op (.set it), h1, h2⟩) (newLink [.all, .cut n]).out).1 = .err .io := r1
    split <;> rename_i e <;> rw [e] at r1' <;> simp_all [newLink]

/-- The hypotheses of `C76_large` are met by 5000 bytes. -/
theorem C76_large_concrete : ∃ it : Item, it.cas = 0 ∧ it.key = b!"k" ∧ it.value.length = 5000 ∧
    (operate (.text b!"n") ⟨.op (.set it), {}, {}⟩ b!"STORED\r\n" (newLink [.all, .cut 0])).1 = .err .io ∧
    (operate (.text b!"n") ⟨.op (.set it), {}, {}⟩ b!"STORED\r\n" (newLink [.all, .cut 0])).2.out.net.sent.length = 4096 := by
  refine ⟨{ key := b!"k", value := List.replicate 5000 97 }, rfl, rfl, List.length_replicate .., ?_⟩
  have h := C76_large b!"n" { key := b!"k", value := List.replicate 5000 97 } {} {} 0 b!"STORED\r\n" rfl (by decide)
    (by rw [List.length_replicate]; omega) rfl (by rw [List.length_replicate]; omega)
  refine ⟨h.1, ?_⟩
  rw [h.2.1, List.length_take, Nat.min_eq_left]
  have : Text.setWire { key := b!"k", value := List.replicate 5000 97 }
      = _ ++ (List.replicate 5000 97 ++ crlf) := rfl
  rw [this, List.length_append, List.length_append, List.length_replicate]
  omega

/-- Three operations, the second write cut after four bytes: the second operation and the third return errors, their
replies stay unread, the peer has the first request and four bytes of the second. -/
theorem C76_concrete :
    let q := operateAll (.text b!"n") [(⟨.op (.get b!"a"), {}, {}⟩, b!"END\r\n"),
      (⟨.op (.delete b!"a"), {}, {}⟩, b!"DELETED\r\n"), (⟨.op (.get b!"a"), {}, {}⟩, b!"END\r\n")] (newLink [.all, .cut 4])
    q.1 = [.err .itemNotFound, .err .io, .err .io] ∧ q.2.unread = b!"DELETED\r\nEND\r\n"
      ∧ q.2.out.net.sent = b!"gets a\r\ndele" ∧ q.2.out.net.writes = [⟨b!"gets a\r\n", true⟩, ⟨b!"dele", false⟩] := by
  decide +kernel

/-- A binary `Set` with three bytes of flags panics after its header; the header precedes the next request. -/
theorem C76_panic_concrete :
    let bad : Issue := ⟨.op (.set { key := b!"k", value := b!"v", flags := some [1, 2, 3] }), {}, {}⟩
    let q := operateAll .binary [(bad, []), (⟨.version, {}, {}⟩, [])] (newLink [])
    q.1 = [.panic, .err .io] ∧ q.2.out.net.sent = gave .binary bad ++ gave .binary ⟨.version, {}, {}⟩
      ∧ (gave .binary bad).length = 24 := by
  decide +kernel

end Props
end Verif
