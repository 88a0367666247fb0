import Verif.Props.MetaHistory
import Verif.Props.BinHistory
import Verif.Props.Sharding
import Verif.Props.Sync
import Verif.Mc.Many
/-! C75: several clients of any protocols share one memcached server. -/

namespace Verif
namespace Props
open Kv Spec Mc

/-! ### flags stay readable for all -/

theorem SmallFlags.delete {s : Store} (h : SmallFlags s) (k : Bytes) : SmallFlags (s.delete k).2 := by
  unfold Store.delete
  cases s.find k
  · exact h
  · exact h.write k none (by simp)

theorem SmallFlags.touch {s : Store} (h : SmallFlags s) (k : Bytes) (x : Int) : SmallFlags (s.touch k x).2 := by
  unfold Store.touch
  cases hf : s.find k with
  | none => exact h
  | some e =>
    refine h.write k _ ?_
    rintro y ⟨⟩
    exact h k e (find_data hf)

theorem SmallFlags.flush (s : Store) : SmallFlags s.flush := fun k e he => by simp [Store.flush] at he

theorem common_flagsOf {i : Item} (h : CommonFlags i) : flagsOf i < 2 ^ 31 := by
  unfold flagsOf flagBytes
  cases hf : i.flags with
  | none => decide
  | some f =>
    obtain ⟨h1, h2⟩ := h f hf
    simp only [h1, if_true]
    exact h2

theorem common_same {i : Item} (h : CommonFlags i) : metaFlagsOf i = flagsOf i := by
  unfold metaFlagsOf flagsOf flagBytes
  cases hf : i.flags with
  | none => rfl
  | some f =>
    obtain ⟨h1, _⟩ := h f hf
    simp only [h1, if_true]
    rw [List.take_of_length_le (by omega)]

theorem common_metaFlagsOf {i : Item} (h : CommonFlags i) : metaFlagsOf i < 2 ^ 31 := by
  rw [common_same h]; exact common_flagsOf h

theorem textApi_small (name : Bytes) (op : Op) (s : Store) (ho : FlagsOk op) (h : SmallFlags s) :
    SmallFlags (textApi name s op).2 := by
  cases op with
  | get k => simp only [textApi]; split <;> exact h
  | getMulti ks => exact h
  | set i =>
    have h2 := h.store (if 0 < i.cas then .cas i.cas else .set) i.key i.value (flagsOf i) i.expiration (common_flagsOf ho)
    simp only [textApi]
    split <;> exact h2
  | add i => exact h.store .add i.key i.value (flagsOf i) i.expiration (common_flagsOf ho)
  | replace i => exact h.store .replace i.key i.value (flagsOf i) i.expiration (common_flagsOf ho)
  | delete k => exact h.delete k
  | increment k d _ => exact h.arithApi true k d
  | decrement k d _ => exact h.arithApi false k d
  | touch k e => exact h.touch k e
  | flush => exact SmallFlags.flush s

theorem binCount_small (s : Store) (up : Bool) (k : Bytes) (d e : Int) (h : SmallFlags s) :
    SmallFlags (binCount s up k d e).2 := by
  unfold binCount
  cases hf : s.find k with
  | none =>
    dsimp only
    split
    · exact h
    · exact h.put k _ 0 _ (by decide)
  | some en =>
    have := h.arith up k (toUnsigned 64 d)
    dsimp only
    split <;> exact this

theorem binApi_small (op : Op) (s : Store) (ho : FlagsOk op) (h : SmallFlags s) : SmallFlags (binApi s op).2 := by
  cases op with
  | get k => simp only [binApi]; split <;> exact h
  | getMulti ks => exact h
  | set i =>
    have h2 := h.store (binMode .set i) i.key i.value (metaFlagsOf i) i.expiration (common_metaFlagsOf ho)
    simp only [binApi]
    split <;> exact h2
  | add i =>
    have h2 := h.store (binMode .add i) i.key i.value (metaFlagsOf i) i.expiration (common_metaFlagsOf ho)
    simp only [binApi]
    split <;> exact h2
  | replace i =>
    have h2 := h.store (binMode .replace i) i.key i.value (metaFlagsOf i) i.expiration (common_metaFlagsOf ho)
    simp only [binApi]
    split <;> exact h2
  | delete k => exact h.delete k
  | increment k d e => exact binCount_small s true k d e h
  | decrement k d e => exact binCount_small s false k d e h
  | touch k e => exact h.touch k e
  | flush => exact SmallFlags.flush s

theorem proto_next (p : Proto) (op : Op) (s : Store) (hs : GoodMetaStore s)
    (ho : p.Fits s op) (hc : s.nextCas + 1 < 2 ^ 63) :
    GoodMetaStore (p.api s op).2 ∧ (p.api s op).2.nextCas ≤ s.nextCas + 1 := by
  cases p with
  | text name =>
    have h := textApi_next name op s ho.2 hs.good hc
    exact ⟨⟨h.1, textApi_small name op s ho.1 hs.flags⟩, h.2⟩
  | metap =>
    have h := metaApi_next op s hs ho.2 hc
    exact ⟨⟨h.1.1, h.2⟩, h.1.2⟩
  | binary =>
    have h := binApi_next op s ho.2 hs.good hc
    exact ⟨⟨h.1, binApi_small op s ho.1 hs.flags⟩, h.2⟩

/-! ### every history -/

variable {C : Type} [DecidableEq C]

/-- Clients that have made no call yet. -/
def fresh (s : Store) : Shared C := { store := s, held := fun _ => {} }

/-- What holds of the clients between two calls, `turns` being still to come: nothing is unread where calls are still
to come, and a header with a token is only in the pool of a client that will not count any more. -/
def Ready (proto : C → Proto) (held : C → Held) (turns : List (Turn C)) : Prop :=
  ∀ c, ((∃ t ∈ turns, t.client = c) → (held c).unread = [])
    ∧ (proto c = .binary → ∀ h ∈ (held c).pool, h.cas ≠ 0 → ∀ t ∈ turns, t.client = c → ¬ IsCount t.op)

/-- Nothing is left unread by the calls of `c`. -/
def ReadsAll (te : Entry → Bytes) (proto : C → Proto) (s : Store) (turns : List (Turn C)) (c : C) : Prop :=
  ∀ (m : Nat) (t : Turn C) (a : Store) (r : Res Out), turns[m]? = some t → (runMany proto s turns).1[m]? = some (a, r) →
    t.client = c → (proto c).Reads te a t.op

theorem sharedRun_eq (te : Entry → Bytes) (hte : ∀ e, (te e).length < 256) (ch : C → McBin.Chooser)
    (hch : ∀ c n pool, Bin.Gettable pool (ch c n pool)) (proto : C → Proto) (turns : List (Turn C)) (s : Store)
    (held : C → Held) (hs : GoodMetaStore s)
    (ho : AlongMany proto (fun c s op => (proto c).Fits s op) s turns) (hstop : StopsBehind te proto s turns)
    (htok : NoStaleToken proto turns)
    (hr : Ready proto held turns) (hc : s.nextCas + turns.length < 2 ^ 63) :
    ∃ held', sharedRun te ch proto { store := s, held := held } turns
      = some ((runMany proto s turns).1, { store := (runMany proto s turns).2, held := held' })
      ∧ ∀ c, (held c).unread = [] → ReadsAll te proto s turns c → (held' c).unread = [] := by
  induction turns generalizing s held with
  | nil => exact ⟨held, rfl, fun c h _ => h⟩
  | cons t rest ih =>
    obtain ⟨hop, hrest⟩ := ho
    obtain ⟨hst, hstop'⟩ := hstop
    have htok' := List.pairwise_cons.1 htok
    have ht := hs.tick t.delay
    simp only [List.length_cons] at hc
    have hn := proto_next (proto t.client) t.op (s.tick t.delay) ht hop (by simp only [Store.tick]; omega)
    have hcas : ((proto t.client).api (s.tick t.delay) t.op).2.nextCas + rest.length < 2 ^ 63 := by
      have := hn.2; simp only [Store.tick] at this ⊢; omega
    have hready : Ready proto held rest := fun c =>
      ⟨fun ⟨u, hu, huc⟩ => (hr c).1 ⟨u, by simp [hu], huc⟩, fun hb h hm h0 u hu => (hr c).2 hb h hm h0 u (by simp [hu])⟩
    have step : ∃ held1, turn te ch proto { store := s.tick t.delay, held := held } t
        = some (((proto t.client).api (s.tick t.delay) t.op).1,
          { store := ((proto t.client).api (s.tick t.delay) t.op).2, held := held1 }) ∧ Ready proto held1 rest
        ∧ ∀ c, (held c).unread = [] → (t.client = c → (proto c).Reads te (s.tick t.delay) t.op) →
          (held1 c).unread = [] := by
      cases hp : proto t.client with
      | text name =>
        rw [hp] at hop
        exact ⟨held, by
          simp only [turn, hp, C52_text_call name t.op hop.2 (s.tick t.delay) ht.good, Option.map_some]; rfl, hready,
          fun c h _ => h⟩
      | metap =>
        rw [hp] at hop
        exact ⟨held, by
          simp only [turn, hp, C52_meta_call t.op (s.tick t.delay) ht hop.2, Option.map_some]; rfl, hready,
          fun c h _ => h⟩
      | binary =>
        rw [hp] at hop
        have hg : ∀ h, Bin.Gettable (held t.client).pool h → h.cas ≠ 0 → ∀ u ∈ t :: rest, u.client = t.client →
            ¬ IsCount u.op := by
          intro h hh hcas
          rcases hh with rfl | hh
          · exact absurd rfl hcas
          · exact (hr t.client).2 hp h hh hcas
        have hcall := Props.C52_binary_call te hte (ch t.client (2 * (held t.client).calls) (held t.client).pool)
          (ch t.client (2 * (held t.client).calls + 1)
            ((held t.client).pool ++ [(McBin.opOf t.op).put1
              (ch t.client (2 * (held t.client).calls) (held t.client).pool)]))
          t.op hop.2 (s.tick t.delay) ht.good (fun hcount => by
            by_cases h0 : (ch t.client (2 * (held t.client).calls) (held t.client).pool).cas = 0
            · exact h0
            · exact absurd hcount (hg _ (hch _ _ _) h0 t (by simp) rfl))
        have hun := (hr t.client).1 ⟨t, by simp, rfl⟩
        refine ⟨fun c => if c = t.client then _ else held c, by
          simp only [turn, hp, hun, hcall, Option.map_some]; rfl, ?_, ?_⟩
        · intro c
          by_cases hcc : c = t.client
          · simp only [hcc, if_true]
            refine ⟨fun ⟨u, hu, huc⟩ => ?_, fun hb h hm hcas u hu huc => ?_⟩
            · rcases hst with h | h
              · exact h hp
              · exact absurd huc (h u hu)
            · rw [List.mem_append, List.mem_append, List.mem_singleton] at hm
              rcases hm with (hm | rfl) | hm
              · exact (hr t.client).2 hp h hm hcas u (by simp [hu]) huc
              · rcases Props.put1_cas t.op _ hcas with hu' | hu'
                · exact htok'.1 u hu huc.symm hp hu'
                · exact hg _ (hch _ _ _) hu' u (by simp [hu]) huc
              · exact absurd (Props.put2_cas t.op _ h hm) hcas
          · simp only [hcc, if_false]
            exact hready c
        · intro c h1 h2
          by_cases hcc : c = t.client
          · subst hcc
            simp only [if_true]
            exact h2 rfl hp
          · simp only [hcc, if_false]
            exact h1
    obtain ⟨held1, h1, h2, h2'⟩ := step
    obtain ⟨held', h3, h4⟩ := ih _ held1 hn.1 hrest hstop' htok'.2 h2 hcas
    refine ⟨held', ?_, fun c hc0 hall => h4 c (h2' c hc0 fun htc => ?_) fun m u a r hu hm huc => ?_⟩
    · simp only [sharedRun, h1, h3, runMany, Option.map_some]
    · exact hall 0 t (s.tick t.delay) _ rfl rfl htc
    · exact hall (m + 1) u a r (by simpa using hu) (by simpa [runMany] using hm) huc

/-- C75: any number of clients, each speaking the text, the meta or the binary protocol over a connection of its own,
use one memcached server in any order: each call returns and does what the abstract store says, no matter
what the others did before.  A connection is in step in the end if no call on it left something unread (those of text
and meta clients never do). -/
theorem C75_history (te : Entry → Bytes) (hte : ∀ e, (te e).length < 256) (ch : C → McBin.Chooser)
    (hch : ∀ c n pool, Bin.Gettable pool (ch c n pool)) (proto : C → Proto) (turns : List (Turn C)) (s : Store)
    (hs : GoodMetaStore s) (ho : AlongMany proto (fun c s op => (proto c).Fits s op) s turns)
    (hstop : StopsBehind te proto s turns) (htok : NoStaleToken proto turns) (hc : s.nextCas + turns.length < 2 ^ 63) :
    ∃ w, sharedRun te ch proto (fresh s) turns = some ((runMany proto s turns).1, w)
      ∧ w.store = (runMany proto s turns).2 ∧ ∀ c, ReadsAll te proto s turns c → (w.held c).unread = [] := by
  obtain ⟨held', h1, h2⟩ := sharedRun_eq te hte ch hch proto turns s (fun _ => {}) hs ho hstop htok
    (fun c => ⟨fun _ => rfl, fun _ h hm => by simp at hm⟩) hc
  exact ⟨_, h1, rfl, fun c => h2 c rfl⟩

/-! ### tokens -/

omit [DecidableEq C]

theorem find_tick_back {s : Store} {d : Nat} {k : Bytes} {e : Entry} (h : (s.tick d).find k = some e) :
    s.find k = some e := by
  unfold Store.find at h ⊢
  have hd' : (s.tick d).data k = s.data k := rfl
  rw [hd'] at h
  cases hd : s.data k with
  | none => rw [hd] at h; exact h
  | some e' =>
    rw [hd] at h
    dsimp only at h ⊢
    by_cases hl : e'.live (s.tick d).now
    · rw [if_pos hl] at h
      rw [if_pos]
      · exact h
      · unfold Entry.live at hl ⊢
        cases hx : e'.expiry with
        | none => rfl
        | some x =>
          rw [hx] at hl
          have hl' : s.now + d < x := of_decide_eq_true hl
          exact decide_eq_true (by omega)
    · rw [if_neg hl] at h; cases h

theorem find_put_off (s : Store) {k k' : Bytes} (h : k ≠ k') (v : Bytes) (f : Nat) (x : Option Nat) :
    (s.put k' v f x).find k = s.find k := by
  unfold Store.find
  rw [put_off s h]; rfl

theorem find_write_off (s : Store) {k k' : Bytes} (h : k ≠ k') (e : Option Entry) :
    (s.write k' e).find k = s.find k := by
  unfold Store.find
  rw [write_off s h]; rfl

/-- What one operation can do to the contents. -/
inductive Change (op : Op) (s : Store) : Store → Prop
  | same : Change op s s
  | put (k v : Bytes) (f : Nat) (x : Option Nat) (ha : Alters k op) : Change op s (s.put k v f x)
  | clear (k : Bytes) (ha : Alters k op) : Change op s (s.write k none)
  | touch (k : Bytes) (e : Entry) (x : Option Nat) (h : s.find k = some e) (ha : Concerns k op) :
    Change op s (s.write k (some { e with expiry := x }))
  | flush (ha : op = .flush) : Change op s s.flush

theorem Change.store {op : Op} (k : Bytes) (ha : Alters k op) (s : Store) (m : Mode) (v : Bytes) (f : Nat) (x : Int) :
    Change op s (s.store m k v f x).2 := by
  have hp := Change.put (s := s) k v f (expiryOf s.now x) ha
  unfold Store.store
  cases m <;> cases s.find k <;> simp only <;> first | exact hp | exact .same | skip
  split
  · exact hp
  · exact .same

theorem Change.delete {op : Op} (k : Bytes) (ha : Alters k op) (s : Store) : Change op s (s.delete k).2 := by
  unfold Store.delete
  cases s.find k
  · exact .same
  · exact .clear k ha

theorem Change.touched {op : Op} (k : Bytes) (ha : Concerns k op) (s : Store) (x : Int) : Change op s (s.touch k x).2 := by
  unfold Store.touch
  cases hf : s.find k with
  | none => exact .same
  | some e => exact .touch k e _ hf ha

theorem Change.arith {op : Op} (k : Bytes) (ha : Alters k op) (s : Store) (up : Bool) (d : Nat) : Change op s (s.arith up k d).2 := by
  unfold Store.arith
  cases s.find k with
  | none => exact .same
  | some e =>
    dsimp only
    cases counterOf e.value with
    | none => exact .same
    | some n => exact .put _ _ _ _ ha

theorem Change.arithApi {op : Op} (k : Bytes) (ha : Alters k op) (s : Store) (up : Bool) (d : Int) : Change op s (arithApi s up k d).2 := by
  unfold Spec.arithApi
  split
  · exact .same
  · exact .arith k ha s up _

theorem Change.binCount {op : Op} (k : Bytes) (ha : Alters k op) (s : Store) (up : Bool) (d e : Int) : Change op s (binCount s up k d e).2 := by
  unfold Spec.binCount
  cases s.find k with
  | none =>
    dsimp only
    split
    · exact .same
    · exact .put _ _ _ _ ha
  | some en =>
    have := Change.arith k ha s up (toUnsigned 64 d)
    dsimp only
    split <;> exact this

theorem proto_change (p : Proto) (s : Store) (op : Op) : Change op s (p.api s op).2 := by
  cases p with
  | text name =>
    show Change op s (textApi name s op).2
    cases op with
    | get k' => simp only [textApi]; split <;> exact .same
    | getMulti ks => exact .same
    | set i =>
      have h2 := Change.store (op := .set i) i.key rfl s (if 0 < i.cas then .cas i.cas else .set) i.value (flagsOf i) i.expiration
      simp only [textApi]
      split <;> exact h2
    | add i => exact .store _ (by exact rfl) ..
    | replace i => exact .store _ (by exact rfl) ..
    | delete k' => exact .delete k' (by exact rfl) s
    | increment k' d _ => exact .arithApi k' (by exact rfl) s true d
    | decrement k' d _ => exact .arithApi k' (by exact rfl) s false d
    | touch k' e => exact .touched k' (by exact rfl) s e
    | flush => exact .flush rfl
  | metap =>
    show Change op s (metaApi s op).2
    cases op with
    | get k' => simp only [metaApi]; split <;> exact .same
    | getMulti ks => exact .same
    | set i =>
      have h2 := Change.store (op := .set i) i.key rfl s (if 0 < i.cas then .cas i.cas else .set) i.value (metaFlagsOf i) i.expiration
      simp only [metaApi]
      split <;> exact h2
    | add i => exact .store _ (by exact rfl) ..
    | replace i => exact .store _ (by exact rfl) ..
    | delete k' => exact .delete k' (by exact rfl) s
    | increment k' d _ => exact .arithApi k' (by exact rfl) s true d
    | decrement k' d _ => exact .arithApi k' (by exact rfl) s false d
    | touch k' e => exact .touched k' (by exact rfl) s e
    | flush => exact .flush rfl
  | binary =>
    show Change op s (binApi s op).2
    cases op with
    | get k' => simp only [binApi]; split <;> exact .same
    | getMulti ks => exact .same
    | set i =>
      have h2 := Change.store (op := .set i) i.key rfl s (binMode .set i) i.value (metaFlagsOf i) i.expiration
      simp only [binApi]
      split <;> exact h2
    | add i =>
      have h2 := Change.store (op := .add i) i.key rfl s (binMode .add i) i.value (metaFlagsOf i) i.expiration
      simp only [binApi]
      split <;> exact h2
    | replace i =>
      have h2 := Change.store (op := .replace i) i.key rfl s (binMode .replace i) i.value (metaFlagsOf i) i.expiration
      simp only [binApi]
      split <;> exact h2
    | delete k' => exact .delete k' (by exact rfl) s
    | increment k' d e => exact .binCount k' (by exact rfl) s true d e
    | decrement k' d e => exact .binCount k' (by exact rfl) s false d e
    | touch k' e => exact .touched k' (by exact rfl) s e
    | flush => exact .flush rfl

/-- An item found afterwards with a token given out before was there before, with the same contents. -/
def Stays (k : Bytes) (s s' : Store) : Prop :=
  s.nextCas ≤ s'.nextCas ∧ ∀ e', s'.find k = some e' → e'.cas < s.nextCas →
    ∃ e, s.find k = some e ∧ e.value = e'.value ∧ e.flags = e'.flags ∧ e.cas = e'.cas

theorem Stays.refl (k : Bytes) (s : Store) : Stays k s s := ⟨Nat.le_refl _, fun e h _ => ⟨e, h, rfl, rfl, rfl⟩⟩

theorem Stays.put (k k' : Bytes) (s : Store) (v : Bytes) (f : Nat) (x : Option Nat) : Stays k s (s.put k' v f x) := by
  refine ⟨by simp [Store.put], fun e' h hlt => ?_⟩
  by_cases hk : k = k'
  · subst hk
    have := find_data h
    rw [put_at] at this
    cases this
    exact absurd hlt (Nat.lt_irrefl _)
  · rw [find_put_off s hk] at h
    exact ⟨e', h, rfl, rfl, rfl⟩

theorem Stays.clear (k k' : Bytes) (s : Store) : Stays k s (s.write k' none) := by
  refine ⟨Nat.le_refl _, fun e' h _ => ?_⟩
  by_cases hk : k = k'
  · subst hk
    have := find_data h
    rw [write_at] at this
    cases this
  · rw [find_write_off s hk] at h
    exact ⟨e', h, rfl, rfl, rfl⟩

theorem Stays.touch (k k' : Bytes) (s : Store) (e : Entry) (x : Option Nat) (hf : s.find k' = some e) :
    Stays k s (s.write k' (some { e with expiry := x })) := by
  refine ⟨Nat.le_refl _, fun e' h _ => ?_⟩
  by_cases hk : k = k'
  · subst hk
    have := find_data h
    rw [write_at] at this
    cases this
    exact ⟨e, hf, rfl, rfl, rfl⟩
  · rw [find_write_off s hk] at h
    exact ⟨e', h, rfl, rfl, rfl⟩

theorem Stays.flush (k : Bytes) (s : Store) : Stays k s s.flush :=
  ⟨Nat.le_refl _, fun e h _ => by simp [Store.flush, Store.find] at h⟩

theorem proto_kept (p : Proto) (k : Bytes) (s : Store) (op : Op) : Stays k s (p.api s op).2 := by
  have h := proto_change p s op
  generalize (p.api s op).2 = s' at h
  cases h with
  | same => exact .refl k s
  | put k' v f x => exact .put ..
  | clear k' => exact .clear ..
  | touch k' e x h => exact .touch k k' s e x h
  | flush => exact .flush k s

theorem proto_pos (p : Proto) (s : Store) (op : Op) (h : PosCas s) : PosCas (p.api s op).2 := by
  have hch := proto_change p s op
  generalize (p.api s op).2 = s' at hch
  cases hch with
  | same => exact h
  | put k' v f x => exact posCas_put h ..
  | clear k' => exact posCas_write h _ _ (by simp)
  | touch k' e x hf =>
    refine posCas_write h _ _ ?_
    rintro y ⟨⟩
    exact h.2 k' e (find_data hf)
  | flush => exact ⟨h.1, fun k e he => by simp [Store.flush] at he⟩

/-- What a call meets and returns. -/
theorem run_at (proto : C → Proto) (turns : List (Turn C)) (s : Store) (m : Nat) (a : Store) (r : Res Out)
    (h : (runMany proto s turns).1[m]? = some (a, r)) :
    ∃ t, turns[m]? = some t ∧ r = ((proto t.client).api a t.op).1 := by
  induction turns generalizing s m with
  | nil => simp [runMany] at h
  | cons t rest ih =>
    cases m with
    | zero =>
      simp only [runMany, List.getElem?_cons_zero, Option.some.injEq, Prod.mk.injEq] at h
      exact ⟨t, rfl, by rw [← h.1]; exact h.2.symm⟩
    | succ m => exact ih _ m (by simpa [runMany] using h)

theorem run_some (proto : C → Proto) (turns : List (Turn C)) (s : Store) (m : Nat) (t : Turn C)
    (h : turns[m]? = some t) :
    ∃ a, (runMany proto s turns).1[m]? = some (a, ((proto t.client).api a t.op).1) := by
  induction turns generalizing s m with
  | nil => simp at h
  | cons u rest ih =>
    cases m with
    | zero =>
      simp only [List.getElem?_cons_zero, Option.some.injEq] at h
      subst h
      exact ⟨_, rfl⟩
    | succ m =>
      obtain ⟨a, ha⟩ := ih ((proto u.client).api (s.tick u.delay) u.op).2 m (by simpa using h)
      exact ⟨a, by simpa [runMany] using ha⟩

/-- The next call meets what the one before left, some seconds later. -/
theorem run_next (proto : C → Proto) (turns : List (Turn C)) (s : Store) (m : Nat) (a b : Store) (r q : Res Out)
    (h : (runMany proto s turns).1[m]? = some (a, r)) (h' : (runMany proto s turns).1[m + 1]? = some (b, q))
    (t u : Turn C) (ht : turns[m]? = some t) (hu : turns[m + 1]? = some u) :
    b = ((proto t.client).api a t.op).2.tick u.delay := by
  induction turns generalizing s m with
  | nil => simp at ht
  | cons v rest ih =>
    cases m with
    | zero =>
      simp only [runMany, List.getElem?_cons_zero, Option.some.injEq, Prod.mk.injEq] at h
      simp only [List.getElem?_cons_zero, Option.some.injEq] at ht
      subst ht
      cases rest with
      | nil => simp at hu
      | cons w rest =>
        simp only [Nat.zero_add, List.getElem?_cons_succ, List.getElem?_cons_zero, Option.some.injEq] at hu
        subst hu
        simp only [runMany, Nat.zero_add, List.getElem?_cons_succ, List.getElem?_cons_zero, Option.some.injEq,
          Prod.mk.injEq] at h'
        rw [← h'.1, ← h.1]
    | succ m =>
      exact ih _ m (by simpa [runMany] using h) (by simpa [runMany] using h') (by simpa using ht) (by simpa using hu)

/-- Every call meets positive tokens. -/
theorem run_pos (proto : C → Proto) (turns : List (Turn C)) (s : Store) (hs : PosCas s) (m : Nat) (a : Store)
    (r : Res Out) (h : (runMany proto s turns).1[m]? = some (a, r)) : PosCas a := by
  induction turns generalizing s m with
  | nil => simp [runMany] at h
  | cons t rest ih =>
    cases m with
    | zero =>
      simp only [runMany, List.getElem?_cons_zero, Option.some.injEq, Prod.mk.injEq] at h
      rw [← h.1]; exact hs
    | succ m =>
      exact ih _ (proto_pos (proto t.client) (s.tick t.delay) t.op hs) m (by simpa [runMany] using h)

/-- Every call meets a store within the limits. -/
theorem run_good (proto : C → Proto) (turns : List (Turn C)) (s : Store)
    (hs : GoodMetaStore s) (ho : AlongMany proto (fun c s op => (proto c).Fits s op) s turns)
    (hc : s.nextCas + turns.length < 2 ^ 63) (m : Nat) (a : Store) (r : Res Out)
    (h : (runMany proto s turns).1[m]? = some (a, r)) : GoodMetaStore a := by
  induction turns generalizing s m with
  | nil => simp [runMany] at h
  | cons t rest ih =>
    obtain ⟨hop, hrest⟩ := ho
    have ht := hs.tick t.delay
    simp only [List.length_cons] at hc
    have hn := proto_next (proto t.client) t.op (s.tick t.delay) ht hop (by simp only [Store.tick]; omega)
    cases m with
    | zero =>
      simp only [runMany, List.getElem?_cons_zero, Option.some.injEq, Prod.mk.injEq] at h
      rw [← h.1]; exact ht
    | succ m =>
      exact ih _ hn.1 hrest (by have := hn.2; simp only [Store.tick] at this ⊢; omega) m (by simpa [runMany] using h)

theorem run_lookup (proto : C → Proto) (turns : List (Turn C)) (s : Store) (i j m : Nat) (b : Store) (q : Res Out)
    (hj : (runMany proto s turns).1[j]? = some (b, q)) (hmj : m ≤ j) :
    ∃ t a, turns[m]? = some t ∧ (runMany proto s turns).1[m]? = some (a, ((proto t.client).api a t.op).1) := by
  obtain ⟨u, hu, _⟩ := run_at proto turns s j b q hj
  have hlen : m < turns.length := Nat.lt_of_le_of_lt hmj (List.getElem?_eq_some_iff.1 hu).1
  obtain ⟨a, ha⟩ := run_some proto turns s m turns[m] (List.getElem?_eq_getElem hlen)
  exact ⟨turns[m], a, List.getElem?_eq_getElem hlen, ha⟩

/-- Tokens are given out in ascending order. -/
theorem run_mono (proto : C → Proto) (turns : List (Turn C)) (s : Store) (i n : Nat) (a b : Store) (r q : Res Out)
    (hi : (runMany proto s turns).1[i]? = some (a, r)) (hj : (runMany proto s turns).1[i + n]? = some (b, q)) :
    a.nextCas ≤ b.nextCas := by
  induction n generalizing b q with
  | zero => rw [Nat.add_zero, hi] at hj; cases hj; exact Nat.le_refl _
  | succ n ih =>
    obtain ⟨t, c, ht, hc⟩ := run_lookup proto turns s i (i + (n + 1)) (i + n) b q hj (by omega)
    obtain ⟨u, hu, _⟩ := run_at proto turns s _ b q hj
    have h1 := ih c _ hc
    have h2 := run_next proto turns s (i + n) c b _ q hc hj t u ht hu
    have h3 := (proto_kept (proto t.client) [] c t.op).1
    rw [h2]
    exact Nat.le_trans h1 h3

/-- An item met by call `j` that has a token given out before call `i` was there all the time since. -/
theorem run_back (proto : C → Proto) (turns : List (Turn C)) (s : Store) (k : Bytes) (i j : Nat) (a b : Store)
    (r q : Res Out) (hi : (runMany proto s turns).1[i]? = some (a, r)) (hj : (runMany proto s turns).1[j]? = some (b, q))
    (e : Entry) (he : b.find k = some e) (hold : e.cas < a.nextCas) (n : Nat) (hn : i + n ≤ j) :
    ∃ c p e', (runMany proto s turns).1[j - n]? = some (c, p) ∧ c.find k = some e' ∧ e'.value = e.value
      ∧ e'.flags = e.flags ∧ e'.cas = e.cas := by
  induction n with
  | zero => exact ⟨b, q, e, hj, he, rfl, rfl, rfl⟩
  | succ n ih =>
    obtain ⟨c, p, e', hc, hf, h1, h2, h3⟩ := ih (by omega)
    obtain ⟨t, d, ht, hd⟩ := run_lookup proto turns s i j (j - (n + 1)) b q hj (by omega)
    obtain ⟨u, hu, _⟩ := run_at proto turns s _ c p hc
    have hidx : j - n = (j - (n + 1)) + 1 := by omega
    rw [hidx] at hc hu
    have hstep := run_next proto turns s _ d c _ p hd hc t u ht hu
    rw [hstep] at hf
    have hf' := find_tick_back hf
    have hmono := run_mono proto turns s i (j - (n + 1) - i) a d r _ hi (by
      have : i + (j - (n + 1) - i) = j - (n + 1) := by omega
      rw [this]; exact hd)
    obtain ⟨e2, g1, g2, g3, g4⟩ := (proto_kept (proto t.client) k d t.op).2 e' hf' (by rw [h3]; omega)
    exact ⟨d, _, e2, hd, g1, g2.trans h1, g3.trans h2, g4.trans h3⟩

theorem api_get {p : Proto} {a : Store} {k : Bytes} {v : Item} (h : (p.api a (.get k)).1 = .ok (.item v)) :
    ∃ e, a.find k = some e ∧ Shows v e := by
  cases p with
  | text name =>
    simp only [Proto.api, textApi] at h
    cases hf : a.find k with
    | none => rw [hf] at h; cases h
    | some e => rw [hf] at h; cases h; exact ⟨e, rfl, rfl, rfl, rfl⟩
  | metap =>
    simp only [Proto.api, metaApi] at h
    cases hf : a.find k with
    | none => rw [hf] at h; cases h
    | some e => rw [hf] at h; cases h; exact ⟨e, rfl, rfl, rfl, rfl⟩
  | binary =>
    simp only [Proto.api, binApi] at h
    cases hf : a.find k with
    | none => rw [hf] at h; cases h
    | some e => rw [hf] at h; cases h; exact ⟨e, rfl, rfl, rfl, rfl⟩

theorem store_cas {s : Store} {c : Nat} {k v : Bytes} {f : Nat} {x : Int} (h : (s.store (.cas c) k v f x).1 = .stored) :
    ∃ e, s.find k = some e ∧ e.cas = c := by
  unfold Store.store at h
  cases hf : s.find k with
  | none => rw [hf] at h; cases h
  | some e =>
    rw [hf] at h
    dsimp only at h
    by_cases hc : e.cas = c
    · exact ⟨e, rfl, hc⟩
    · rw [if_neg hc] at h; cases h

/-- A `Set` with a token that succeeds found the item with that token. -/
theorem api_set {p : Proto} {a : Store} {w : Item} (hw : 0 < w.cas) (h : (p.api a (.set w)).1 = .ok .done) :
    ∃ e, a.find w.key = some e ∧ e.cas = w.cas := by
  cases p with
  | text name =>
    simp only [Proto.api, textApi, hw, if_true] at h
    refine store_cas (v := w.value) (f := flagsOf w) (x := w.expiration) ?_
    revert h
    generalize (a.store (.cas w.cas) w.key w.value (flagsOf w) w.expiration) = r
    intro h
    cases hr : r.1 <;> rw [hr] at h <;> first | rfl | cases h
  | metap =>
    simp only [Proto.api, metaApi, hw, if_true] at h
    refine store_cas (v := w.value) (f := metaFlagsOf w) (x := w.expiration) ?_
    revert h
    generalize (a.store (.cas w.cas) w.key w.value (metaFlagsOf w) w.expiration) = r
    intro h
    cases hr : r.1 <;> rw [hr] at h <;> first | rfl | cases h
  | binary =>
    simp only [Proto.api, binApi, binMode, hw, if_true] at h
    refine store_cas (v := w.value) (f := metaFlagsOf w) (x := w.expiration) ?_
    revert h
    generalize (a.store (.cas w.cas) w.key w.value (metaFlagsOf w) w.expiration) = r
    intro h
    cases hr : r.1 <;> rw [hr] at h <;> first | rfl | cases h

variable [DecidableEq C]

/-- The setting of C75: clients that have made no call yet and a memcached server within its limits, whose tokens are
positive; calls that fit their clients (`Proto.Fits`, `StopsBehind`, `NoStaleToken`). -/
structure Setting (te : Entry → Bytes) (ch : C → McBin.Chooser) (proto : C → Proto) (s : Store) (turns : List (Turn C)) :
    Prop where
  extras : ∀ e, (te e).length < 256
  pool : ∀ c n pool, Bin.Gettable pool (ch c n pool)
  store : GoodMetaStore s
  pos : PosCas s
  stops : StopsBehind te proto s turns
  fits : AlongMany proto (fun c s op => (proto c).Fits s op) s turns
  tok : NoStaleToken proto turns
  room : s.nextCas + turns.length < 2 ^ 63

theorem Setting.log {te : Entry → Bytes} {ch : C → McBin.Chooser} {proto : C → Proto} {s : Store}
    {turns : List (Turn C)} (S : Setting te ch proto s turns) {log : List (Store × Res Out)} {w : Shared C}
    (h : sharedRun te ch proto (fresh s) turns = some (log, w)) :
    log = (runMany proto s turns).1 ∧ w.store = (runMany proto s turns).2 := by
  obtain ⟨w', h1, h2, _⟩ := C75_history te S.extras ch S.pool proto turns s S.store S.fits S.stops S.tok S.room
  rw [h] at h1
  cases h1
  exact ⟨rfl, h2⟩

omit [DecidableEq C] in
theorem fetched_shows {proto : C → Proto} {t : Turn C} {a : Store} {k : Bytes} {v : Item}
    (h : Fetched proto t ((proto t.client).api a t.op).1 k v) : ∃ e, a.find k = some e ∧ Shows v e := by
  rcases h with ⟨h1, h2⟩ | ⟨h1, ks, l, h2, h3, h4, h5⟩
  · rw [h1] at h2; exact api_get h2
  · rw [h1, h2] at h3
    simp only [Proto.api, metaApi, Res.ok.injEq, Out.items.injEq] at h3
    rw [← h3, List.mem_filterMap] at h4
    obtain ⟨k', _, hk⟩ := h4
    cases hf : a.find k' with
    | none => rw [hf] at hk; cases hk
    | some e =>
      rw [hf] at hk
      cases hk
      have : k' = k := h5
      subst this
      exact ⟨e, hf, rfl, rfl, rfl⟩

/-- C75, compare-and-swap: when a client fetches an item (`Get`, or `GetMulti` of a meta client) and later, after any
calls of any clients, a `Set` with the token of that item succeeds (the same client's or another's, in any protocol),
then the server held that very item (value, flags and token) at every moment from the fetch to the `Set`. -/
theorem C75_cas {te : Entry → Bytes} {ch : C → McBin.Chooser} {proto : C → Proto} {s : Store}
    {turns : List (Turn C)} (S : Setting te ch proto s turns) {log : List (Store × Res Out)} {w : Shared C}
    (hrun : sharedRun te ch proto (fresh s) turns = some (log, w)) (k : Bytes) (i j : Nat) (hij : i < j)
    (t t' : Turn C) (a b : Store) (r : Res Out) (v u : Item)
    (ht : turns[i]? = some t) (hi : log[i]? = some (a, r)) (hget : Fetched proto t r k v)
    (ht' : turns[j]? = some t') (hset : t'.op = .set u) (hk : u.key = k) (hcas : u.cas = v.cas)
    (hj : log[j]? = some (b, .ok .done)) :
    ∀ m c q, i ≤ m → m ≤ j → log[m]? = some (c, q) → ∃ e, c.find k = some e ∧ Shows v e := by
  obtain ⟨rfl, _⟩ := S.log hrun
  obtain ⟨t0, g1, g2⟩ := run_at proto turns s i a r hi
  rw [ht] at g1; cases g1
  rw [g2] at hget
  obtain ⟨e, he, hv⟩ := fetched_shows hget
  have hgood := run_good proto turns s S.store S.fits S.room i a r hi
  have hpos := run_pos proto turns s S.pos i a r hi
  have hd := find_data he
  have hold := (hgood.good.entry k e hd).2.1
  obtain ⟨t1, g3, g4⟩ := run_at proto turns s j b _ hj
  rw [ht'] at g3; cases g3
  rw [hset] at g4
  obtain ⟨e', he', hc'⟩ := api_set (by rw [hcas, hv.cas]; exact hpos.2 k e hd) g4.symm
  rw [hk] at he'
  have hce : e'.cas = e.cas := by rw [hc', hcas, hv.cas]
  have back := run_back proto turns s k i j a b r _ hi hj e' he' (by rw [hce]; exact hold)
  -- the item at call i is the one of `v`
  obtain ⟨c0, p0, e0, f1, f2, f3, f4, f5⟩ := back (j - i) (by omega)
  have hji : j - (j - i) = i := by omega
  rw [hji, hi] at f1
  cases f1
  rw [he] at f2
  cases f2
  intro m c q h1 h2 hm
  obtain ⟨c1, p1, e1, l1, l2, l3, l4, l5⟩ := back (j - m) (by omega)
  have hjm : j - (j - m) = m := by omega
  rw [hjm, hm] at l1
  cases l1
  exact ⟨e1, l2, by rw [hv.value, f3, l3], by rw [hv.flags, f4, l4], by rw [hv.cas, f5, l5]⟩

omit [DecidableEq C] in
theorem store_stored {s : Store} {m : Mode} {k v : Bytes} {f : Nat} {x : Int} (h : (s.store m k v f x).1 = .stored) :
    (s.store m k v f x).2 = s.put k v f (expiryOf s.now x) := by
  unfold Store.store at h ⊢
  cases m <;> cases hf : s.find k <;> rw [hf] at h <;> dsimp only at h ⊢ <;> first | rfl | (cases h; done) | skip
  split at h
  · rename_i h1; rw [if_pos h1]
  · cases h

omit [DecidableEq C] in
theorem found_put {s : Store} {k v : Bytes} {f : Nat} {x : Option Nat} {e : Entry} (h : (s.put k v f x).find k = some e) :
    e = ⟨v, f, x, s.nextCas⟩ := by
  have := find_data h
  rw [put_at] at this
  cases this
  rfl

omit [DecidableEq C] in
theorem arith_value {s : Store} {up : Bool} {k : Bytes} {d n : Nat} (h : (s.arith up k d).1 = .value n) (e : Entry)
    (he : (s.arith up k d).2.find k = some e) : e.cas = s.nextCas := by
  unfold Store.arith at h he
  cases hf : s.find k with
  | none => rw [hf] at h; cases h
  | some e0 =>
    rw [hf] at h he
    dsimp only at h he
    cases hc : counterOf e0.value with
    | none => rw [hc] at h; cases h
    | some n0 => rw [hc] at he; rw [found_put he]

omit [DecidableEq C] in
/-- What is found under a key after a successful operation on it is new. -/
theorem api_alters {p : Proto} {a : Store} {k : Bytes} {op : Op} {x : Out} (ha : Alters k op)
    (h : (p.api a op).1 = .ok x) (hf : (a.find k).isSome) (e : Entry) (he : (p.api a op).2.find k = some e) :
    e.cas = a.nextCas := by
  have hstore : ∀ (m : Mode) (i : Item) (f : Nat), i.key = k →
      (a.store m i.key i.value f i.expiration).1 = .stored →
      (a.store m i.key i.value f i.expiration).2.find k = some e → e.cas = a.nextCas := by
    intro m i f hk hs hfind
    rw [store_stored hs, hk] at hfind
    rw [found_put hfind]
  have hdel : ∀ k', k' = k → (a.delete k').2.find k = some e → e.cas = a.nextCas := by
    intro k' hk hfind
    subst hk
    unfold Store.delete at hfind
    cases hf' : a.find k' with
    | none => rw [hf'] at hf; cases hf
    | some e0 =>
      rw [hf'] at hfind
      have := find_data hfind
      rw [write_at] at this
      cases this
  have hcount : ∀ up k' d, k' = k → (arithApi a up k' d).1 = .ok x → (arithApi a up k' d).2.find k = some e →
      e.cas = a.nextCas := by
    intro up k' d hk h1 h2
    subst hk
    unfold Spec.arithApi at h1 h2
    by_cases hd : d < 0
    · rw [if_pos hd] at h1; cases h1
    · rw [if_neg hd] at h1 h2
      dsimp only at h1 h2
      cases hv : (a.arith up k' d.toNat).1 with
      | value n => exact arith_value hv e h2
      | notFound => rw [hv] at h1; cases h1
      | notNumber => rw [hv] at h1; cases h1
  have hbcount : ∀ up k' d ex, k' = k → (binCount a up k' d ex).1 = .ok x → (binCount a up k' d ex).2.find k = some e →
      e.cas = a.nextCas := by
    intro up k' d ex hk h1 h2
    subst hk
    unfold Spec.binCount at h1 h2
    cases hf' : a.find k' with
    | none => rw [hf'] at hf; cases hf
    | some e0 =>
      rw [hf'] at h1 h2
      dsimp only at h1 h2
      cases hv : (a.arith up k' (toUnsigned 64 d)).1 with
      | value n => rw [hv] at h2; exact arith_value hv e h2
      | notFound => rw [hv] at h1; cases h1
      | notNumber => rw [hv] at h1; cases h1
  have hflush : a.flush.find k = some e → e.cas = a.nextCas := by
    intro h; simp [Store.flush, Store.find] at h
  cases p with
  | text name =>
    simp only [Proto.api] at h he
    cases op with
    | get k' => exact ha.elim
    | getMulti ks => exact ha.elim
    | touch k' e => exact ha.elim
    | set i =>
      simp only [textApi] at h he
      cases hr : (a.store (if 0 < i.cas then .cas i.cas else .set) i.key i.value (flagsOf i) i.expiration).1 with
      | stored => rw [hr] at he; exact hstore _ i _ ha hr he
      | _ => rw [hr] at h; cases h
    | add i =>
      simp only [textApi] at h he
      split at h
      · rename_i hr; exact hstore _ i _ ha hr he
      · cases h
    | replace i =>
      simp only [textApi] at h he
      split at h
      · rename_i hr; exact hstore _ i _ ha hr he
      · cases h
    | delete k' => exact hdel k' ha he
    | increment k' d _ => exact hcount true k' d ha h he
    | decrement k' d _ => exact hcount false k' d ha h he
    | flush => exact hflush he
  | metap =>
    simp only [Proto.api] at h he
    cases op with
    | get k' => exact ha.elim
    | getMulti ks => exact ha.elim
    | touch k' e => exact ha.elim
    | set i =>
      simp only [metaApi] at h he
      cases hr : (a.store (if 0 < i.cas then .cas i.cas else .set) i.key i.value (metaFlagsOf i) i.expiration).1 with
      | stored => rw [hr] at he; exact hstore _ i _ ha hr he
      | _ => rw [hr] at h; cases h
    | add i =>
      simp only [metaApi] at h he
      split at h
      · rename_i hr; exact hstore _ i _ ha hr he
      · cases h
    | replace i =>
      simp only [metaApi] at h he
      split at h
      · rename_i hr; exact hstore _ i _ ha hr he
      · cases h
    | delete k' => exact hdel k' ha he
    | increment k' d _ => exact hcount true k' d ha h he
    | decrement k' d _ => exact hcount false k' d ha h he
    | flush => exact hflush he
  | binary =>
    simp only [Proto.api] at h he
    cases op with
    | get k' => exact ha.elim
    | getMulti ks => exact ha.elim
    | touch k' e => exact ha.elim
    | set i =>
      simp only [binApi] at h he
      cases hr : (a.store (binMode .set i) i.key i.value (metaFlagsOf i) i.expiration).1 with
      | stored => rw [hr] at he; exact hstore _ i _ ha hr he
      | _ => rw [hr] at h; cases h
    | add i =>
      simp only [binApi] at h he
      cases hr : (a.store (binMode .add i) i.key i.value (metaFlagsOf i) i.expiration).1 with
      | stored => rw [hr] at he; exact hstore _ i _ ha hr he
      | _ => rw [hr] at h; cases h
    | replace i =>
      simp only [binApi] at h he
      cases hr : (a.store (binMode .replace i) i.key i.value (metaFlagsOf i) i.expiration).1 with
      | stored => rw [hr] at he; exact hstore _ i _ ha hr he
      | _ => rw [hr] at h; cases h
    | delete k' => exact hdel k' ha he
    | increment k' d ex => exact hbcount true k' d ex ha h he
    | decrement k' d ex => exact hbcount false k' d ex ha h he
    | flush => exact hflush he

/-- C75, no lost update: when between the fetch of an item and the `Set` with its token some `Set`, `Add`, `Replace`,
`Delete`, `Increment` or `Decrement` of that key or some `Flush` succeeded, whoever called it, then the `Set` fails. -/
theorem C75_no_lost_update {te : Entry → Bytes} {ch : C → McBin.Chooser} {proto : C → Proto} {s : Store}
    {turns : List (Turn C)} (S : Setting te ch proto s turns) {log : List (Store × Res Out)} {w : Shared C}
    (hrun : sharedRun te ch proto (fresh s) turns = some (log, w)) (k : Bytes) (i m j : Nat) (him : i < m) (hmj : m < j)
    (t t1 t' : Turn C) (a c b : Store) (r q : Res Out) (x : Out) (v u : Item)
    (ht : turns[i]? = some t) (hi : log[i]? = some (a, r)) (hget : Fetched proto t r k v)
    (ht1 : turns[m]? = some t1) (halt : Alters k t1.op) (hm : log[m]? = some (c, .ok x))
    (ht' : turns[j]? = some t') (hset : t'.op = .set u) (hk : u.key = k) (hcas : u.cas = v.cas)
    (hj : log[j]? = some (b, q)) : q ≠ .ok .done := by
  rintro rfl
  have all := C75_cas S hrun k i j (by omega) t t' a b r v u ht hi hget ht' hset hk hcas hj
  obtain ⟨e, he, hv⟩ := all m c _ (by omega) (by omega) hm
  obtain ⟨rfl, _⟩ := S.log hrun
  obtain ⟨t2, d, ht2, hd⟩ := run_lookup proto turns s i j (m + 1) b _ hj (by omega)
  obtain ⟨e2, he2, hv2⟩ := all (m + 1) d _ (by omega) (by omega) hd
  obtain ⟨t3, g1, g2⟩ := run_at proto turns s m c _ hm
  rw [ht1] at g1; cases g1
  have hstep := run_next proto turns s m c d _ _ hm hd t1 t2 ht1 ht2
  rw [hstep] at he2
  have hnew := api_alters halt g2.symm (by rw [he]; rfl) e2 (find_tick_back he2)
  have hgood := run_good proto turns s S.store S.fits S.room m c _ hm
  have hlt := (hgood.good.entry k e (find_data he)).2.1
  have : e2.cas = e.cas := by rw [← hv2.cas, hv.cas]
  omega

omit [DecidableEq C] in
theorem store_refused {s : Store} {c : Nat} {k v : Bytes} {f : Nat} {x : Int} :
    (∃ e, s.find k = some e ∧ e.cas = c ∧ (s.store (.cas c) k v f x).1 = .stored)
    ∨ (∃ e, s.find k = some e ∧ e.cas ≠ c ∧ s.store (.cas c) k v f x = (.exists_, s))
    ∨ (s.find k = none ∧ s.store (.cas c) k v f x = (.notFound, s)) := by
  unfold Store.store
  cases hf : s.find k with
  | none => exact Or.inr (Or.inr ⟨rfl, rfl⟩)
  | some e =>
    by_cases hc : e.cas = c
    · exact Or.inl ⟨e, rfl, hc, by simp [hc]⟩
    · exact Or.inr (Or.inl ⟨e, rfl, hc, by simp [hc]⟩)

omit [DecidableEq C] in
theorem api_set_refused {p : Proto} {a : Store} {u : Item} (hu : 0 < u.cas) (h : (p.api a (.set u)).1 ≠ .ok .done) :
    (p.api a (.set u)).2 = a
    ∧ ((∃ e, a.find u.key = some e ∧ e.cas ≠ u.cas ∧ (p.api a (.set u)).1 = .err .itemExists)
      ∨ (a.find u.key = none ∧ (p.api a (.set u)).1 ≠ .err .itemExists)) := by
  cases p with
  | text name =>
    simp only [Proto.api, textApi, hu, if_true] at h ⊢
    rcases store_refused (s := a) (c := u.cas) (k := u.key) (v := u.value) (f := flagsOf u) (x := u.expiration) with
      ⟨e, h1, h2, h3⟩ | ⟨e, h1, h2, h3⟩ | ⟨h1, h3⟩
    · rw [h3] at h; exact absurd rfl h
    · rw [h3]; exact ⟨rfl, Or.inl ⟨e, h1, h2, rfl⟩⟩
    · rw [h3]; exact ⟨rfl, Or.inr ⟨h1, by simp⟩⟩
  | metap =>
    simp only [Proto.api, metaApi, hu, if_true] at h ⊢
    rcases store_refused (s := a) (c := u.cas) (k := u.key) (v := u.value) (f := metaFlagsOf u) (x := u.expiration) with
      ⟨e, h1, h2, h3⟩ | ⟨e, h1, h2, h3⟩ | ⟨h1, h3⟩
    · rw [h3] at h; exact absurd rfl h
    · rw [h3]; exact ⟨rfl, Or.inl ⟨e, h1, h2, rfl⟩⟩
    · rw [h3]; exact ⟨rfl, Or.inr ⟨h1, by simp⟩⟩
  | binary =>
    simp only [Proto.api, binApi, binMode, hu, if_true] at h ⊢
    rcases store_refused (s := a) (c := u.cas) (k := u.key) (v := u.value) (f := metaFlagsOf u) (x := u.expiration) with
      ⟨e, h1, h2, h3⟩ | ⟨e, h1, h2, h3⟩ | ⟨h1, h3⟩
    · rw [h3] at h; exact absurd rfl h
    · rw [h3]; exact ⟨rfl, Or.inl ⟨e, h1, h2, rfl⟩⟩
    · rw [h3]; exact ⟨rfl, Or.inr ⟨h1, by simp⟩⟩

omit [DecidableEq C] in
/-- The last call leaves the contents in the end. -/
theorem run_last (proto : C → Proto) (turns : List (Turn C)) (s : Store) (m : Nat) (a : Store) (r : Res Out)
    (h : (runMany proto s turns).1[m]? = some (a, r)) (t : Turn C) (ht : turns[m]? = some t)
    (hl : m + 1 = turns.length) : (runMany proto s turns).2 = ((proto t.client).api a t.op).2 := by
  induction turns generalizing s m with
  | nil => simp at ht
  | cons v rest ih =>
    cases m with
    | zero =>
      simp only [runMany, List.getElem?_cons_zero, Option.some.injEq, Prod.mk.injEq] at h
      simp only [List.getElem?_cons_zero, Option.some.injEq] at ht
      subst ht
      cases rest with
      | nil => simp only [runMany]; rw [← h.1]
      | cons w rest => simp at hl
    | succ m => exact ih _ m (by simpa [runMany] using h) (by simpa using ht) (by simpa using hl)

/-- C75, a refused `Set` with a token changes nothing: the next call meets what this one met, some seconds later.  The
error is ItemExists exactly when the key holds an item with another token; otherwise the key is missing. -/
theorem C75_cas_refused {te : Entry → Bytes} {ch : C → McBin.Chooser} {proto : C → Proto} {s : Store}
    {turns : List (Turn C)} (S : Setting te ch proto s turns) {log : List (Store × Res Out)} {w : Shared C}
    (hrun : sharedRun te ch proto (fresh s) turns = some (log, w)) (j : Nat) (t : Turn C) (b : Store) (r : Res Out)
    (u : Item) (ht : turns[j]? = some t) (hset : t.op = .set u) (hu : 0 < u.cas) (hj : log[j]? = some (b, r))
    (hr : r ≠ .ok .done) :
    ((∃ e, b.find u.key = some e ∧ e.cas ≠ u.cas ∧ r = .err .itemExists)
      ∨ (b.find u.key = none ∧ r ≠ .err .itemExists))
    ∧ (∀ t' c q, turns[j + 1]? = some t' → log[j + 1]? = some (c, q) → c = b.tick t'.delay)
    ∧ (j + 1 = turns.length → w.store = b) := by
  obtain ⟨rfl, hw⟩ := S.log hrun
  obtain ⟨t0, g1, g2⟩ := run_at proto turns s j b r hj
  rw [ht] at g1; cases g1
  rw [hset] at g2
  obtain ⟨h1, h2⟩ := api_set_refused (p := proto t.client) (a := b) hu (by rw [← g2]; exact hr)
  refine ⟨by rw [g2]; exact h2, fun t' c q ht' hc => ?_, fun hl => ?_⟩
  · rw [run_next proto turns s j b c r q hj hc t t' ht ht', hset, h1]
  · rw [hw, run_last proto turns s j b r hj t ht hl, hset, h1]

/-! ### what one client stores all others get -/

omit [DecidableEq C] in
theorem proto_off (p : Proto) (s : Store) (op : Op) (k : Bytes) (h : ¬ Concerns k op) :
    (p.api s op).2.data k = s.data k ∧ (p.api s op).2.now = s.now := by
  have hch := proto_change p s op
  generalize (p.api s op).2 = s' at hch
  have alt : ∀ k', Alters k' op → k ≠ k' := by
    rintro k' ha rfl
    apply h
    cases op <;> first | exact ha | exact ha.elim
  have con : ∀ k', Concerns k' op → k ≠ k' := by
    rintro k' ha rfl
    exact h ha
  cases hch with
  | same => exact ⟨rfl, rfl⟩
  | put k' v f x ha => exact ⟨put_off s (alt k' ha) _ _ _, rfl⟩
  | clear k' ha => exact ⟨write_off s (alt k' ha) _, rfl⟩
  | touch k' e x hf ha => exact ⟨write_off s (con k' ha) _, rfl⟩
  | flush ha => subst ha; exact absurd trivial h

omit [DecidableEq C] in
theorem proto_now (p : Proto) (s : Store) (op : Op) : (p.api s op).2.now = s.now := by
  have hch := proto_change p s op
  generalize (p.api s op).2 = s' at hch
  cases hch <;> rfl

omit [DecidableEq C] in
theorem between_succ (turns : List (Turn C)) (i m : Nat) (him : i ≤ m) (t : Turn C) (ht : turns[m + 1]? = some t) :
    between turns i (m + 1) = between turns i m + t.delay := by
  unfold between
  rw [List.take_succ, ht, List.drop_append_of_le_length]
  · simp
  · have := (List.getElem?_eq_some_iff.1 ht).1
    rw [List.length_take]; omega

omit [DecidableEq C] in
theorem between_self (turns : List (Turn C)) (i : Nat) : between turns i i = 0 := by
  unfold between
  rw [List.drop_eq_nil_of_le]
  · rfl
  · rw [List.length_take]; omega

omit [DecidableEq C] in
/-- The contents of a key nobody touches. -/
theorem run_forward (proto : C → Proto) (turns : List (Turn C)) (s : Store) (k : Bytes) (i : Nat) (a : Store) (r : Res Out)
    (t : Turn C) (ht : turns[i]? = some t) (hi : (runMany proto s turns).1[i]? = some (a, r)) (n : Nat) (c : Store)
    (q : Res Out) (hc : (runMany proto s turns).1[i + n + 1]? = some (c, q))
    (hidle : ∀ m u, i < m → m ≤ i + n → turns[m]? = some u → ¬ Concerns k u.op) :
    c.data k = ((proto t.client).api a t.op).2.data k ∧ c.now = a.now + between turns i (i + n + 1) := by
  induction n generalizing c q with
  | zero =>
    obtain ⟨u, hu, _⟩ := run_at proto turns s _ c q hc
    rw [run_next proto turns s i a c r q hi hc t u ht hu]
    have hb := between_succ turns i i (Nat.le_refl _) u hu
    rw [between_self] at hb
    refine ⟨rfl, ?_⟩
    rw [show i + 0 + 1 = i + 1 from rfl, hb]
    simp only [Store.tick, proto_now]
    omega
  | succ n ih =>
    obtain ⟨t1, d, ht1, hd⟩ := run_lookup proto turns s i _ (i + n + 1) c q hc (by omega)
    obtain ⟨u, hu, _⟩ := run_at proto turns s _ c q hc
    have h := ih d _ hd (fun m u h1 h2 => hidle m u h1 (by omega))
    have hnext := run_next proto turns s (i + n + 1) d c _ q hd hc t1 u ht1 hu
    have hoff := proto_off (proto t1.client) d t1.op k (hidle _ t1 (by omega) (by omega) ht1)
    have hb := between_succ turns i (i + n + 1) (by omega) u hu
    rw [hnext]
    refine ⟨?_, ?_⟩
    · show ((proto t1.client).api d t1.op).2.data k = _
      rw [hoff.1, h.1]
    · rw [show i + (n + 1) + 1 = i + n + 1 + 1 from rfl, hb]
      show ((proto t1.client).api d t1.op).2.now + u.delay = _
      rw [hoff.2, h.2]
      omega

omit [DecidableEq C] in
/-- A store that succeeds puts the item there. -/
theorem api_stores {p : Proto} {a : Store} {op : Op} {u : Item} {x : Out} (hs : Stores u op) (hf : CommonFlags u)
    (h : (p.api a op).1 = .ok x) :
    (p.api a op).2 = a.put u.key u.value (flagsOf u) (expiryOf a.now u.expiration) := by
  cases p with
  | text name =>
    rcases hs with rfl | rfl | rfl <;> simp only [Proto.api, textApi] at h ⊢
    · cases hr : (a.store (if 0 < u.cas then .cas u.cas else .set) u.key u.value (flagsOf u) u.expiration).1 with
      | stored => exact store_stored hr
      | _ => rw [hr] at h; cases h
    · split at h
      · rename_i hr; exact store_stored hr
      · cases h
    · split at h
      · rename_i hr; exact store_stored hr
      · cases h
  | metap =>
    rcases hs with rfl | rfl | rfl <;> simp only [Proto.api, metaApi] at h ⊢
    · rw [common_same hf] at h ⊢
      cases hr : (a.store (if 0 < u.cas then .cas u.cas else .set) u.key u.value (flagsOf u) u.expiration).1 with
      | stored => exact store_stored hr
      | _ => rw [hr] at h; cases h
    · split at h
      · rename_i hr; exact store_stored hr
      · cases h
    · split at h
      · rename_i hr; exact store_stored hr
      · cases h
  | binary =>
    rcases hs with rfl | rfl | rfl <;> simp only [Proto.api, binApi] at h ⊢ <;> rw [common_same hf] at h ⊢
    · cases hr : (a.store (binMode .set u) u.key u.value (flagsOf u) u.expiration).1 with
      | stored => exact store_stored hr
      | _ => rw [hr] at h; cases h
    · cases hr : (a.store (binMode .add u) u.key u.value (flagsOf u) u.expiration).1 with
      | stored => exact store_stored hr
      | _ => rw [hr] at h; cases h
    · cases hr : (a.store (binMode .replace u) u.key u.value (flagsOf u) u.expiration).1 with
      | stored => exact store_stored hr
      | _ => rw [hr] at h; cases h

omit [DecidableEq C] in
theorem along_at (proto : C → Proto) (P : C → Store → Op → Prop) (turns : List (Turn C)) (s : Store)
    (ho : AlongMany proto P s turns) (m : Nat) (a : Store) (r : Res Out)
    (h : (runMany proto s turns).1[m]? = some (a, r)) (t : Turn C) (ht : turns[m]? = some t) : P t.client a t.op := by
  induction turns generalizing s m with
  | nil => simp at ht
  | cons v rest ih =>
    cases m with
    | zero =>
      simp only [runMany, List.getElem?_cons_zero, Option.some.injEq, Prod.mk.injEq] at h
      simp only [List.getElem?_cons_zero, Option.some.injEq] at ht
      subst ht
      rw [← h.1]; exact ho.1
    | succ m => exact ih _ ho.2 m (by simpa [runMany] using h) (by simpa using ht)

omit [DecidableEq C] in
theorem live_iff (v : Bytes) (f c : Nat) (exp : Int) (now passed : Nat) :
    Entry.live ⟨v, f, expiryOf now exp, c⟩ (now + passed) = true ↔ Outlives exp now passed := by
  have hm : ((maxDelta : Nat) : Int) = 2592000 := rfl
  unfold Entry.live Outlives expiryOf
  by_cases h0 : exp = 0
  · simp [h0]
  · rw [if_neg h0]
    by_cases h1 : exp < 0
    · rw [if_pos h1]
      simp only [decide_eq_true_eq]
      omega
    · rw [if_neg h1]
      obtain ⟨n, rfl⟩ := Int.eq_ofNat_of_zero_le (Int.not_lt.1 h1)
      by_cases h2 : (n : Int) ≤ 2592000
      · rw [if_pos (by rw [hm]; exact h2)]
        simp only [decide_eq_true_eq, Int.toNat_natCast]
        omega
      · rw [if_neg (by rw [hm]; exact h2)]
        simp only [decide_eq_true_eq, Int.toNat_natCast]
        omega

/-- C75, what one client stores every other gets: after a successful `Set`, `Add` or `Replace` of `u` by any client, and
then only calls that do not change that key, a `Get` by any client of any protocol returns the same key, value and
flags (four zero bytes for no flags) as long as the item has not expired, and ItemNotFound after that. -/
theorem C75_interop {te : Entry → Bytes} {ch : C → McBin.Chooser} {proto : C → Proto} {s : Store}
    {turns : List (Turn C)} (S : Setting te ch proto s turns) {log : List (Store × Res Out)} {w : Shared C}
    (hrun : sharedRun te ch proto (fresh s) turns = some (log, w)) (i j : Nat) (hij : i < j) (t t' : Turn C) (a b : Store)
    (x : Out) (q : Res Out) (u : Item) (ht : turns[i]? = some t) (hstores : Stores u t.op)
    (hi : log[i]? = some (a, .ok x)) (hidle : ∀ m t1, i < m → m < j → turns[m]? = some t1 → ¬ Concerns u.key t1.op)
    (ht' : turns[j]? = some t') (hget : t'.op = .get u.key) (hj : log[j]? = some (b, q)) :
    (Outlives u.expiration a.now (between turns i j) →
      ∃ v, q = .ok (.item v) ∧ v.key = u.key ∧ v.value = u.value ∧ v.flags = some (flagBytes u.flags))
    ∧ (¬ Outlives u.expiration a.now (between turns i j) → q = .err .itemNotFound) := by
  obtain ⟨rfl, _⟩ := S.log hrun
  obtain ⟨t0, g1, g2⟩ := run_at proto turns s i a _ hi
  rw [ht] at g1; cases g1
  obtain ⟨t0, g3, g4⟩ := run_at proto turns s j b q hj
  rw [ht'] at g3; cases g3
  have hfl : CommonFlags u := by
    have hfit := along_at proto _ turns s S.fits i a _ hi t ht
    have := hfit.1
    rcases hstores with h | h | h <;> rw [h] at this <;> exact this
  have hput := api_stores hstores hfl g2.symm
  have hfw := run_forward proto turns s u.key i a _ t ht hi (j - i - 1) b q
    (by have : i + (j - i - 1) + 1 = j := by omega
        rw [this]; exact hj) (fun m t1 h1 h2 => hidle m t1 h1 (by omega))
  rw [show i + (j - i - 1) + 1 = j by omega, hput, put_at] at hfw
  obtain ⟨hdata, hnow⟩ := hfw
  have hfind : b.find u.key = if Outlives u.expiration a.now (between turns i j) then
      some ⟨u.value, flagsOf u, expiryOf a.now u.expiration, a.nextCas⟩ else none := by
    unfold Store.find
    rw [hdata, hnow]
    dsimp only
    by_cases ho : Outlives u.expiration a.now (between turns i j)
    · rw [if_pos ((live_iff ..).2 ho), if_pos ho]
    · rw [if_neg (fun h => ho ((live_iff ..).1 h)), if_neg ho]
  have hbytes : putBE 4 (flagsOf u) = flagBytes u.flags := by
    have := putBE_getBE (flagBytes u.flags)
    have h4 : (flagBytes u.flags).length = 4 := by
      unfold flagBytes
      cases u.flags with
      | none => rfl
      | some f => dsimp only; split <;> simp_all
    rw [h4] at this
    exact this
  rw [hget] at g4
  constructor
  · intro ho
    rw [if_pos ho] at hfind
    cases hp : proto t'.client with
    | text name =>
      rw [hp] at g4; simp only [Proto.api, textApi, hfind] at g4
      exact ⟨_, g4, rfl, rfl, by rw [← hbytes]; rfl⟩
    | metap =>
      rw [hp] at g4; simp only [Proto.api, metaApi, hfind] at g4
      exact ⟨_, g4, rfl, rfl, by rw [← hbytes]; rfl⟩
    | binary =>
      rw [hp] at g4; simp only [Proto.api, binApi, hfind] at g4
      exact ⟨_, g4, rfl, rfl, by rw [← hbytes]; rfl⟩
  · intro ho
    rw [if_neg ho] at hfind
    cases hp : proto t'.client with
    | text name => rw [hp] at g4; simp only [Proto.api, textApi, hfind] at g4; exact g4
    | metap => rw [hp] at g4; simp only [Proto.api, metaApi, hfind] at g4; exact g4
    | binary => rw [hp] at g4; simp only [Proto.api, binApi, hfind] at g4; exact g4

/-! ### GetMulti -/

/-- C75, `GetMulti` and tokens: items from the `GetMulti` of a text or binary client have no token, so a `Set` of
such an item always succeeds, whatever was stored under its key in the meantime; items from a meta client's `GetMulti`
have one. -/
theorem C75_multi {te : Entry → Bytes} {ch : C → McBin.Chooser} {proto : C → Proto} {s : Store}
    {turns : List (Turn C)} (S : Setting te ch proto s turns) {log : List (Store × Res Out)} {w : Shared C}
    (hrun : sharedRun te ch proto (fresh s) turns = some (log, w)) (i : Nat) (t : Turn C) (ks : List Bytes) (a : Store)
    (l : List Item) (v : Item) (ht : turns[i]? = some t) (hop : t.op = .getMulti ks)
    (hi : log[i]? = some (a, .ok (.items l))) (hv : v ∈ l) :
    (proto t.client ≠ .metap → v.cas = 0 ∧ ∀ (j : Nat) (t' : Turn C) (b : Store) (q : Res Out) (u : Item),
      turns[j]? = some t' → t'.op = .set u → u.cas = v.cas →
      log[j]? = some (b, q) → q = .ok .done)
    ∧ (proto t.client = .metap → 0 < v.cas) := by
  obtain ⟨rfl, _⟩ := S.log hrun
  obtain ⟨t0, g1, g2⟩ := run_at proto turns s i a _ hi
  rw [ht] at g1; cases g1
  constructor
  · intro hp
    have h0 : v.cas = 0 := by
      rw [hop] at g2
      cases hpr : proto t.client with
      | text name =>
        rw [hpr] at g2
        simp only [Proto.api, textApi, Res.ok.injEq, Out.items.injEq] at g2
        rw [g2, List.mem_filterMap] at hv
        obtain ⟨k, _, hk⟩ := hv
        cases hf : a.find k <;> rw [hf] at hk <;> cases hk
        rfl
      | metap => exact absurd hpr hp
      | binary =>
        rw [hpr] at g2
        simp only [Proto.api, binApi, Res.ok.injEq, Out.items.injEq] at g2
        rw [g2, List.mem_filterMap] at hv
        obtain ⟨k, _, hk⟩ := hv
        cases hf : a.find k <;> rw [hf] at hk <;> cases hk
        rfl
    refine ⟨h0, fun j t' b q u ht' hset hu hj => ?_⟩
    obtain ⟨t1, g3, g4⟩ := run_at proto turns s j b q hj
    rw [ht'] at g3; cases g3
    rw [hset] at g4
    have hn : ¬ 0 < u.cas := by omega
    rw [g4]
    cases proto t'.client with
    | text name => simp only [Proto.api, textApi, hn, if_false]; rfl
    | metap => simp only [Proto.api, metaApi, hn, if_false]; rfl
    | binary => simp only [Proto.api, binApi, binMode, hn, if_false]; rfl
  · intro hp
    obtain ⟨e, he, hs⟩ := fetched_shows (proto := proto) (t := t) (a := a) (k := v.key) (v := v)
      (Or.inr ⟨hp, ks, l, hop, g2.symm, hv, rfl⟩)
    rw [hs.cas]
    exact (run_pos proto turns s S.pos i a _ hi).2 _ e (find_data he)

/-! ### counters -/

omit [DecidableEq C] in
theorem arith_counter (s : Store) (up : Bool) (k : Bytes) (d : Nat) (e : Entry) (he : s.find k = some e)
    (hx : e.expiry = none) (n : Nat) (hn : counterOf e.value = some n) (hb : count up n d < 2 ^ 63) :
    (s.arith up k d).1 = .value (count up n d)
    ∧ ∃ e', (s.arith up k d).2.find k = some e' ∧ e'.expiry = none ∧ counterOf e'.value = some (count up n d) := by
  unfold Store.arith
  rw [he]
  dsimp only
  rw [hn]
  dsimp only
  refine ⟨rfl, ⟨padTo e.value.length (natDec (count up n d)), e.flags, none, s.nextCas⟩, ?_, rfl,
    counterOf_padTo _ _ (by omega)⟩
  unfold Store.find
  rw [put_at, hx]
  rfl

omit [DecidableEq C] in
/-- One counting call on a counter: the same in all protocols. -/
theorem api_counter (p : Proto) (s : Store) (k : Bytes) (op : Op) (hop : CountsUpDown k op)
    (hfit : p.Fits s op) (e : Entry) (he : s.find k = some e) (hx : e.expiry = none) (n : Nat)
    (hn : counterOf e.value = some n) (hb : n + upBy k op < 2 ^ 63) :
    (p.api s op).1 = .ok (.num (bump k n op))
    ∧ ∃ e', (p.api s op).2.find k = some e' ∧ e'.expiry = none ∧ counterOf e'.value = some (bump k n op) := by
  have text : ∀ up d, 0 ≤ d → count up n d.toNat < 2 ^ 63 →
      (arithApi s up k d).1 = .ok (.num (count up n d.toNat))
      ∧ ∃ e', (arithApi s up k d).2.find k = some e' ∧ e'.expiry = none
        ∧ counterOf e'.value = some (count up n d.toNat) := by
    intro up d h0 hlt
    obtain ⟨h1, h2⟩ := arith_counter s up k d.toNat e he hx n hn hlt
    unfold Spec.arithApi
    rw [if_neg (by omega)]
    dsimp only
    rw [h1]
    exact ⟨by simp only [counted, hlt, if_true], h2⟩
  have bin : ∀ up d ex, 0 ≤ d → InRange 64 d → count up n d.toNat < 2 ^ 63 →
      (binCount s up k d ex).1 = .ok (.num (count up n d.toNat))
      ∧ ∃ e', (binCount s up k d ex).2.find k = some e' ∧ e'.expiry = none
        ∧ counterOf e'.value = some (count up n d.toNat) := by
    intro up d ex h0 hr hlt
    have hu : toUnsigned 64 d = d.toNat := toUnsigned_of_nonneg 64 d h0 (by
      have h2 : d < 2 ^ 63 := hr.2
      have : ((2 : Nat) ^ 64 : Nat) = (18446744073709551616 : Int) := by decide
      have h3 : (2 : Int) ^ 63 = 9223372036854775808 := by decide
      omega)
    obtain ⟨h1, h2⟩ := arith_counter s up k d.toNat e he hx n hn hlt
    unfold Spec.binCount
    rw [he]
    dsimp only
    rw [hu, h1]
    refine ⟨?_, h2⟩
    have : toSigned 64 (count up n d.toNat) = (count up n d.toNat : Int) := by
      unfold toSigned
      have h3 : (2 : Nat) ^ (64 - 1) = 2 ^ 63 := rfl
      rw [Nat.mod_eq_of_lt (by omega), if_pos (by rw [h3]; exact hlt)]
    simp only [this]
  have cup : ∀ d : Nat, n + d < 2 ^ 63 → count true n d = n + d := by
    intro d hd
    simp only [count, if_true]
    exact Nat.mod_eq_of_lt (by omega)
  have cdown : ∀ d : Nat, count false n d = n - d := fun d => rfl
  have hn63 : n < 2 ^ 63 := by omega
  cases op with
  | increment k' d ex =>
    obtain ⟨rfl, h0⟩ := hop
    simp only [upBy, if_true] at hb
    have hc := cup d.toNat hb
    simp only [bump, if_true, ← hc]
    cases p with
    | text name => exact text true d h0 (by rw [hc]; exact hb)
    | metap => exact text true d h0 (by rw [hc]; exact hb)
    | binary => exact bin true d ex h0 hfit.2.2.1 (by rw [hc]; exact hb)
  | decrement k' d ex =>
    obtain ⟨rfl, h0⟩ := hop
    have hlt : count false n d.toNat < 2 ^ 63 := by rw [cdown]; omega
    simp only [bump, if_true, ← cdown]
    cases p with
    | text name => exact text false d h0 hlt
    | metap => exact text false d h0 hlt
    | binary => exact bin false d ex h0 hfit.2.2.1 hlt
  | _ => exact hop.elim

omit [DecidableEq C] in
theorem bump_le (k : Bytes) (n : Nat) (op : Op) : bump k n op ≤ n + upBy k op := by
  cases op <;> simp only [bump, upBy] <;> first | omega | (split <;> omega)

omit [DecidableEq C] in
theorem find_tick_forever {s : Store} {k : Bytes} {e : Entry} (d : Nat) (h : s.find k = some e) (hx : e.expiry = none) :
    (s.tick d).find k = some e := by
  have hd := find_data h
  unfold Store.find
  rw [show (s.tick d).data k = s.data k from rfl, hd]
  simp only [Entry.live, hx, if_true]

omit [DecidableEq C] in
theorem bump_idle (k : Bytes) (n : Nat) (op : Op) (h : ¬ Concerns k op) : bump k n op = n := by
  cases op with
  | increment k' d _ => simp only [bump]; rw [if_neg (by exact h)]
  | decrement k' d _ => simp only [bump]; rw [if_neg (by exact h)]
  | _ => rfl

omit [DecidableEq C] in
theorem run_counter (proto : C → Proto) (k : Bytes) (turns : List (Turn C)) (s : Store)
    (ho : AlongMany proto (fun c s op => (proto c).Fits s op) s turns)
    (hops : ∀ t ∈ turns, CountsUpDown k t.op ∨ ¬ Concerns k t.op) (e : Entry) (he : s.find k = some e)
    (hx : e.expiry = none) (n : Nat) (hn : counterOf e.value = some n)
    (hb : n + (turns.map fun t => upBy k t.op).sum < 2 ^ 63) :
    (∀ (m : Nat) (t : Turn C) (a : Store) (r : Res Out), turns[m]? = some t → (runMany proto s turns).1[m]? = some (a, r) → CountsUpDown k t.op →
      r = .ok (.num ((((turns.take (m + 1)).map Turn.op).foldl (bump k) n : Nat) : Int)))
    ∧ ∃ e', (runMany proto s turns).2.find k = some e'
      ∧ counterOf e'.value = some ((turns.map Turn.op).foldl (bump k) n) := by
  induction turns generalizing s e n with
  | nil => exact ⟨by simp, e, he, hn⟩
  | cons u rest ih =>
    have he1 := find_tick_forever u.delay he hx
    simp only [List.map_cons, List.sum_cons] at hb
    have hle := bump_le k n u.op
    have key : (CountsUpDown k u.op → ((proto u.client).api (s.tick u.delay) u.op).1 = .ok (.num (bump k n u.op)))
        ∧ ∃ e', ((proto u.client).api (s.tick u.delay) u.op).2.find k = some e' ∧ e'.expiry = none
          ∧ counterOf e'.value = some (bump k n u.op) := by
      rcases hops u (by simp) with hc | hc
      · obtain ⟨h1, h2⟩ := api_counter (proto u.client) (s.tick u.delay) k u.op hc ho.1 e he1 hx n hn (by omega)
        exact ⟨fun _ => h1, h2⟩
      · refine ⟨fun hcu => absurd ?_ hc, e, ?_, hx, by rw [bump_idle k n u.op hc]; exact hn⟩
        · revert hcu
          cases u.op <;> intro hcu <;> first | exact hcu.1 | exact hcu.elim
        · obtain ⟨h1, h2⟩ := proto_off (proto u.client) (s.tick u.delay) u.op k hc
          unfold Store.find at he1 ⊢
          rw [h1, h2]; exact he1
    obtain ⟨hres, e', g1, g2, g3⟩ := key
    obtain ⟨r1, r2⟩ := ih _ ho.2 (fun t ht => hops t (by simp [ht])) e' g1 g2 (bump k n u.op) g3 (by omega)
    constructor
    · intro m t a r ht hm hcount
      cases m with
      | zero =>
        simp only [runMany, List.getElem?_cons_zero, Option.some.injEq, Prod.mk.injEq] at hm
        simp only [List.getElem?_cons_zero, Option.some.injEq] at ht
        subst ht
        rw [← hm.2]
        exact hres hcount
      | succ m =>
        have := r1 m t a r (by simpa using ht) (by simpa [runMany] using hm) hcount
        simpa using this
    · simpa [runMany] using r2

/-- C75, no count is lost: when any number of clients of any protocols increment and decrement (by amounts that are not
negative) a counter that does not expire, each call returns the number that results from all calls up to it, and in
the end the server holds the number that results from all of them, as long as the sums stay below 2^63. -/
theorem C75_count {te : Entry → Bytes} {ch : C → McBin.Chooser} {proto : C → Proto} {s : Store}
    {turns : List (Turn C)} (S : Setting te ch proto s turns) {log : List (Store × Res Out)} {w : Shared C}
    (hrun : sharedRun te ch proto (fresh s) turns = some (log, w)) (k : Bytes) (e : Entry) (he : s.find k = some e)
    (hx : e.expiry = none) (n : Nat) (hn : counterOf e.value = some n)
    (hops : ∀ t ∈ turns, CountsUpDown k t.op ∨ ¬ Concerns k t.op)
    (hb : n + (turns.map fun t => upBy k t.op).sum < 2 ^ 63) :
    (∀ (m : Nat) (t : Turn C) (a : Store) (r : Res Out), turns[m]? = some t → log[m]? = some (a, r) → CountsUpDown k t.op →
      r = .ok (.num ((((turns.take (m + 1)).map Turn.op).foldl (bump k) n : Nat) : Int)))
    ∧ ∃ e', w.store.find k = some e' ∧ counterOf e'.value = some ((turns.map Turn.op).foldl (bump k) n) := by
  obtain ⟨rfl, hw⟩ := S.log hrun
  rw [hw]
  exact run_counter proto k turns s S.fits hops e he hx n hn hb

/-! ### the hypotheses are met -/

/-- A text, a meta and a binary client. -/
def three : Fin 3 → Proto
  | 0 => .text b!"s1"
  | 1 => .metap
  | 2 => .binary

/-- The binary client stores, all read, two compare and swap with the same token: the second, the binary client's, fails.
Then the others count. -/
def threeTurns : List (Turn (Fin 3)) :=
  [⟨0, 2, .set { key := b!"k", value := b!"5", flags := some [0, 0, 0, 7] }⟩,
   ⟨1, 0, .get b!"k"⟩,
   ⟨0, 1, .getMulti [b!"k"]⟩,
   ⟨0, 2, .get b!"k"⟩,
   ⟨2, 1, .set { key := b!"k", value := b!"6", cas := 1 }⟩,
   ⟨0, 2, .set { key := b!"k", value := b!"7", cas := 1 }⟩,
   ⟨0, 0, .increment b!"k" 10 0⟩,
   ⟨0, 1, .increment b!"k" 5 0⟩,
   ⟨9, 0, .getMulti [b!"k"]⟩]

/-- A possible `sync.Pool`: the header put back last. -/
def lastPut (_ : Fin 3) : McBin.Chooser := fun _ p => p.getLast?.getD {}

theorem threeSetting : Setting (fun e => putBE 4 e.flags) lastPut three (emptyStore 1000) threeTurns where
  extras := by intro e; simp [putBE]
  pool := by
    intro c n pool
    cases h : pool.getLast? with
    | none => exact Or.inl (by simp [lastPut, h])
    | some x => exact Or.inr (by simpa [lastPut, h] using List.mem_of_getLast? h)
  store := ⟨emptyStore_good 1000, fun _ _ h => by simp [emptyStore] at h⟩
  pos := emptyStore_pos 1000
  stops := by
    refine ⟨Or.inl fun _ => rfl, Or.inl fun h => ?_, Or.inl fun h => ?_, Or.inl fun _ => rfl, Or.inl fun h => ?_,
      Or.inr ?_, Or.inl fun h => ?_, Or.inl fun h => ?_, Or.inl fun h => ?_, trivial⟩
    · cases h
    · cases h
    · cases h
    · decide
    · cases h
    · cases h
    · cases h
  fits := by
    have key : ∀ i : Item, Key i.key → i.value.length ≤ maxValue → InRange 32 i.expiration → i.cas < 2 ^ 64 → GoodItem i :=
      fun i a b c d => ⟨a, b, c, d⟩
    have common : ∀ i : Item, (i.flags = none ∨ i.flags = some [0, 0, 0, 7]) → CommonFlags i := by
      rintro i (h | h) f hf
      · rw [h] at hf; cases hf
      · rw [h] at hf; cases hf; decide
    have four : ∀ i : Item, CommonFlags i → ∀ f, i.flags = some f → 4 ≤ f.length := fun i h f hf => by
      rw [(h f hf).1]; decide
    refine ⟨⟨common _ (Or.inr rfl), key _ (by decide) (by decide) (by decide) (by decide), four _ (common _ (Or.inr rfl)), by decide⟩,
      ⟨trivial, (by decide : Key b!"k")⟩, ⟨trivial, ?_⟩, ⟨trivial, (by decide : Key b!"k")⟩,
      ⟨common _ (Or.inl rfl), key _ (by decide) (by decide) (by decide) (by decide), common _ (Or.inl rfl)⟩,
      ⟨common _ (Or.inl rfl), key _ (by decide) (by decide) (by decide) (by decide), four _ (common _ (Or.inl rfl)), by decide⟩,
      ⟨trivial, (by decide : Key b!"k" ∧ InRange 64 10)⟩, ⟨trivial, (by decide : Key b!"k" ∧ InRange 64 5)⟩,
      ⟨trivial, (by decide : [b!"k"] ≠ [] ∧ ∀ k ∈ [b!"k"], Key k)⟩, trivial⟩
    intro k hk
    simp only [List.mem_singleton] at hk
    subst hk
    exact ⟨by decide, by decide +kernel⟩
  tok := by
    simp [NoStaleToken, threeTurns, UsesToken, IsCount, three]
  room := by decide

/-- What the three clients see. -/
example : ((runMany three (emptyStore 1000) threeTurns).1.map Prod.snd)
    = [.ok .done,
       .ok (.item { key := b!"k", value := b!"5", flags := some [0, 0, 0, 7], cas := 1, server := b!"s1" }),
       .ok (.items [{ key := b!"k", value := b!"5", flags := some [0, 0, 0, 7], expiration := -1, cas := 1 }]),
       .ok (.item { key := b!"k", value := b!"5", flags := some [0, 0, 0, 7], cas := 1 }),
       .ok .done, .err .itemExists, .ok (.num 16), .ok (.num 21),
       .ok (.items [{ key := b!"k", value := b!"21", flags := some [0, 0, 0, 0], server := b!"s1" }])] := by
  decide +kernel

/-- C75 on this history: the binary client's `Set` lost to the meta client's. -/
example (log : List (Store × Res Out)) (w : Shared (Fin 3))
    (hrun : sharedRun (fun e => putBE 4 e.flags) lastPut three (fresh (emptyStore 1000)) threeTurns = some (log, w))
    (a c b : Store) (v : Item) (q : Res Out) (h3 : log[3]? = some (a, .ok (.item v))) (hv : v.cas = 1)
    (h4 : log[4]? = some (c, .ok .done)) (h5 : log[5]? = some (b, q)) : q ≠ .ok .done :=
  C75_no_lost_update threeSetting hrun b!"k" 3 4 5 (by decide) (by decide) _ _ _ a c b _ q .done v _ rfl h3
    (Or.inl ⟨rfl, rfl⟩) rfl rfl h4 rfl rfl rfl hv.symm h5

/-- C75 on this history: the meta client's `GetMulti` and its `Set` with the token. -/
example (log : List (Store × Res Out)) (w : Shared (Fin 3))
    (hrun : sharedRun (fun e => putBE 4 e.flags) lastPut three (fresh (emptyStore 1000)) threeTurns = some (log, w))
    (a b c : Store) (q : Res Out) (v : Item) (h2 : log[2]? = some (a, .ok (.items [v]))) (hk : v.key = b!"k")
    (hv : v.cas = 1) (h4 : log[4]? = some (b, .ok .done)) (h3 : log[3]? = some (c, q)) :
    ∃ e, c.find b!"k" = some e ∧ Shows v e :=
  C75_cas threeSetting hrun b!"k" 2 4 (by decide) _ _ a b _ v _ rfl h2
    (Or.inr ⟨rfl, _, _, rfl, rfl, List.mem_singleton.2 rfl, hk⟩) rfl rfl rfl hv.symm h4 3 c q (by decide) (by decide) h3

/-- C75 on this history: what the binary client stored the text client gets. -/
example (log : List (Store × Res Out)) (w : Shared (Fin 3))
    (hrun : sharedRun (fun e => putBE 4 e.flags) lastPut three (fresh (emptyStore 1000)) threeTurns = some (log, w))
    (a b : Store) (x : Out) (q : Res Out) (h0 : log[0]? = some (a, .ok x)) (h3 : log[3]? = some (b, q)) :
    ∃ v, q = .ok (.item v) ∧ v.key = b!"k" ∧ v.value = b!"5" ∧ v.flags = some [0, 0, 0, 7] :=
  (C75_interop threeSetting hrun 0 3 (by decide) _ _ a b x q { key := b!"k", value := b!"5", flags := some [0, 0, 0, 7] }
    rfl (Or.inl rfl) h0 (by
      intro m t1 h1 h2 ht
      have : m = 1 ∨ m = 2 := by omega
      rcases this with rfl | rfl <;> (cases ht; exact id)) rfl rfl h3).1 (Or.inl rfl)

/-- A counter. -/
def counterStore : Store := (emptyStore 5).put b!"k" b!"9" 0 none

/-- All three count. -/
def countTurns : List (Turn (Fin 3)) :=
  [⟨0, 0, .increment b!"k" 3 0⟩, ⟨7, 2, .increment b!"k" 100 0⟩, ⟨0, 1, .get b!"k"⟩, ⟨0, 1, .decrement b!"k" 2 0⟩,
   ⟨1, 2, .delete b!"x"⟩]

theorem countSetting : Setting (fun e => putBE 4 e.flags) lastPut three counterStore countTurns where
  extras := threeSetting.extras
  pool := threeSetting.pool
  store := by
    have h := emptyStore_good 5
    have hf : SmallFlags (emptyStore 5) := fun _ _ h => by simp [emptyStore] at h
    exact ⟨h.put b!"k" b!"9" 0 none (by decide) (by decide) (by decide) (by simp), hf.put b!"k" b!"9" 0 none (by decide)⟩
  pos := posCas_put (emptyStore_pos 5) _ _ _ _
  stops := ⟨Or.inl fun _ => rfl, Or.inl fun _ => rfl, Or.inl fun _ => rfl, Or.inl fun _ => rfl, Or.inl fun _ => rfl, trivial⟩
  fits := ⟨⟨trivial, (by decide : Key b!"k" ∧ InRange 64 3)⟩,
    ⟨trivial, (by decide : Key b!"k" ∧ InRange 64 100 ∧ (-1 : Int) ≤ 0 ∧ (0 : Int) < 2 ^ 31)⟩,
    ⟨trivial, (by decide : Key b!"k")⟩, ⟨trivial, (by decide : Key b!"k" ∧ InRange 64 2)⟩,
    ⟨trivial, (by decide : Key b!"x")⟩, trivial⟩
  tok := by simp [NoStaleToken, countTurns, UsesToken]
  room := by decide

example (log : List (Store × Res Out)) (w : Shared (Fin 3))
    (hrun : sharedRun (fun e => putBE 4 e.flags) lastPut three (fresh counterStore) countTurns = some (log, w))
    (a : Store) (r : Res Out) (h3 : log[3]? = some (a, r)) : r = .ok (.num 110) :=
  (C75_count countSetting hrun b!"k" ⟨b!"9", 0, none, 1⟩ rfl rfl 9 (by decide +kernel)
    (by simp [countTurns, CountsUpDown, Concerns, Alters]) (by decide)).1 3 _ a r rfl h3 ⟨rfl, by decide⟩

end Props
end Verif
