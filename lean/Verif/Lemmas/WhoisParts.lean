import Verif.Lemmas.WhoisBlocks
import Verif.Lemmas.Overrides
import Mathlib.Tactic.Tauto
/-
Lemmas about the data of the registries: what the files of a source change in the tables.
-/
namespace Loc
open Spec Props

/-! ## What several parts say -/

section
variable {α κ β : Type} {R : α → κ → β → Prop}

theorem lastSays_cons {x : α} {parts : List α} {k : κ} {v : β} :
    LastSays R (x :: parts) k v ↔ LastSays R parts k v ∨ (NoneSays R parts k ∧ R x k v) := by
  constructor
  · rintro ⟨pre, y, post, he, h1, h2⟩
    cases pre with
    | nil =>
      cases he
      exact .inr ⟨h2, h1⟩
    | cons z pre =>
      cases he
      exact .inl ⟨pre, y, post, rfl, h1, h2⟩
  · rintro (⟨pre, y, post, rfl, h1, h2⟩ | ⟨h1, h2⟩)
    · exact ⟨x :: pre, y, post, rfl, h1, h2⟩
    · exact ⟨[], x, parts, rfl, h2, h1⟩

theorem firstSays_cons {x : α} {parts : List α} {k : κ} {v : β} :
    FirstSays R (x :: parts) k v ↔ R x k v ∨ ((∀ v', ¬ R x k v') ∧ FirstSays R parts k v) := by
  constructor
  · rintro ⟨pre, y, post, he, h1, h2⟩
    cases pre with
    | nil =>
      cases he
      exact .inl h1
    | cons z pre =>
      cases he
      exact .inr ⟨h2 x List.mem_cons_self, pre, y, post, rfl, h1, fun y hy => h2 y (List.mem_cons_of_mem _ hy)⟩
  · rintro (h | ⟨h0, pre, y, post, rfl, h1, h2⟩)
    · exact ⟨[], x, parts, rfl, h, fun y hy => by cases hy⟩
    · refine ⟨x :: pre, y, post, rfl, h1, fun z hz => ?_⟩
      rcases List.mem_cons.mp hz with rfl | hz
      · exact h0
      · exact h2 z hz

theorem noneSays_cons {x : α} {parts : List α} {k : κ} : NoneSays R (x :: parts) k ↔ (∀ v, ¬ R x k v) ∧ NoneSays R parts k :=
  List.forall_mem_cons

theorem lastSays_nil {k : κ} {v : β} : ¬ LastSays R [] k v := by
  rintro ⟨pre, y, post, he, -⟩
  cases pre <;> cases he

theorem firstSays_nil {k : κ} {v : β} : ¬ FirstSays R [] k v := by
  rintro ⟨pre, y, post, he, -⟩
  cases pre <;> cases he

theorem lastSays_none {parts : List α} {k : κ} {v : β} (h : LastSays R parts k v) : ¬ NoneSays R parts k := by
  obtain ⟨pre, y, post, rfl, h1, -⟩ := h
  exact fun h => h y (List.mem_append_right _ List.mem_cons_self) v h1

theorem lastSays_or_none (parts : List α) (k : κ) : (∃ v, LastSays R parts k v) ∨ NoneSays R parts k := by
  induction parts with
  | nil => exact .inr fun x hx => by cases hx
  | cons x parts ih =>
    rcases ih with ⟨v, h⟩ | h
    · exact .inl ⟨v, lastSays_cons.mpr (.inl h)⟩
    · by_cases hx : ∃ v, R x k v
      · obtain ⟨v, hx⟩ := hx
        exact .inl ⟨v, lastSays_cons.mpr (.inr ⟨h, hx⟩)⟩
      · exact .inr (noneSays_cons.mpr ⟨fun v hv => hx ⟨v, hv⟩, h⟩)

theorem lastSays_mem {parts : List α} {k : κ} {v : β} (h : LastSays R parts k v) : ∃ x ∈ parts, R x k v := by
  obtain ⟨pre, y, post, rfl, h1, -⟩ := h
  exact ⟨y, List.mem_append_right _ List.mem_cons_self, h1⟩

/-- A table that later parts overwrite and others only add to -/
theorem each_table {f : WhoisTables → α → Call WhoisTables} {T : WhoisTables → κ → β → Prop} {R1 R2 : α → κ → β → Prop} {P : α → Prop}
    (hstep : ∀ t x t', P x → f t x = .ret t' → ∀ k v, T t' k v ↔ R1 x k v ∨ ((∀ v', ¬ R1 x k v') ∧
      (T t k v ∨ ((∀ v', ¬ T t k v') ∧ R2 x k v)))) :
    ∀ (parts : List α) (t t' : WhoisTables), (∀ x ∈ parts, P x) → eachPart f t parts = .ret t' → ∀ k v, T t' k v ↔
      LastSays R1 parts k v ∨ (NoneSays R1 parts k ∧ (T t k v ∨ ((∀ v', ¬ T t k v') ∧ FirstSays R2 parts k v))) := by
  intro parts
  induction parts with
  | nil =>
    intro t t' _ h k v
    cases h
    constructor
    · exact fun h => .inr ⟨fun x hx => (by cases hx), .inl h⟩
    · rintro (h | ⟨-, h | ⟨-, h⟩⟩)
      · exact absurd h lastSays_nil
      · exact h
      · exact absurd h firstSays_nil
  | cons x parts ih =>
    intro t t' hP h k v
    rw [eachPart] at h
    cases hf : f t x with
    | exc y =>
      rw [hf] at h
      cases h
    | ret t1 =>
      rw [hf] at h
      have h1 := hstep t x t1 (hP x List.mem_cons_self) hf k
      have h2 := ih t1 t' (fun y hy => hP y (List.mem_cons_of_mem _ hy)) h k v
      have hn : (∀ v', ¬ T t1 k v') ↔ (∀ v', ¬ R1 x k v') ∧ (∀ v', ¬ T t k v') ∧ ∀ v', ¬ R2 x k v' := by
        constructor
        · intro g
          have g1 : ∀ v', ¬ R1 x k v' := fun v' hv => g v' ((h1 v').mpr (.inl hv))
          have g2 : ∀ v', ¬ T t k v' := fun v' hv => g v' ((h1 v').mpr (.inr ⟨g1, .inl hv⟩))
          exact ⟨g1, g2, fun v' hv => g v' ((h1 v').mpr (.inr ⟨g1, .inr ⟨g2, hv⟩⟩))⟩
        · rintro ⟨g1, g2, g3⟩ v' hv
          rcases (h1 v').mp hv with g | ⟨-, g | ⟨-, g⟩⟩
          · exact g1 v' g
          · exact g2 v' g
          · exact g3 v' g
      rw [h2, lastSays_cons, noneSays_cons, firstSays_cons, hn, h1]
      tauto

theorem each_keys {f : WhoisTables → α → Call WhoisTables} {K : WhoisTables → Prop} {P : α → Prop}
    (hstep : ∀ t x t', P x → f t x = .ret t' → K t → K t') :
    ∀ (parts : List α) (t t' : WhoisTables), (∀ x ∈ parts, P x) → eachPart f t parts = .ret t' → K t → K t' := by
  intro parts
  induction parts with
  | nil =>
    intro t t' _ h hk
    cases h
    exact hk
  | cons x parts ih =>
    intro t t' hP h hk
    rw [eachPart] at h
    cases hf : f t x with
    | exc y =>
      rw [hf] at h
      cases h
    | ret t1 =>
      rw [hf] at h
      exact ih t1 t' (fun y hy => hP y (List.mem_cons_of_mem _ hy)) h (hstep t x t1 (hP x List.mem_cons_self) hf hk)

theorem each_exc {f : WhoisTables → α → Call WhoisTables} {P Q : α → Prop} (hstep : ∀ t x y, P x → f t x = .exc y → Q x) :
    ∀ (parts : List α) (t : WhoisTables) (y : Exc), (∀ x ∈ parts, P x) → eachPart f t parts = .exc y → ∃ x ∈ parts, Q x := by
  intro parts
  induction parts with
  | nil =>
    intro t y _ h
    cases h
  | cons x parts ih =>
    intro t y hP h
    rw [eachPart] at h
    cases hf : f t x with
    | exc z => exact ⟨x, List.mem_cons_self, hstep t x z (hP x List.mem_cons_self) hf⟩
    | ret t1 =>
      rw [hf] at h
      obtain ⟨x', h1, h2⟩ := ih t1 y (fun y hy => hP y (List.mem_cons_of_mem _ hy)) h
      exact ⟨x', List.mem_cons_of_mem _ h1, h2⟩

end

/-! ## Files and their parts -/

/-- One part -/
def parsePart (e : WhoisEnv) (source : CStr) (t : WhoisTables) : Part → Call WhoisTables
  | .block ts => parseBlock e source t ts
  | .line s => parseStat e source t s
  | .arin l => arinLine t l

theorem eachPart_append {α : Type} (f : WhoisTables → α → Call WhoisTables) (xs ys : List α) : ∀ t, eachPart f t (xs ++ ys) =
    match eachPart f t xs with
    | .exc x => .exc x
    | .ret t => eachPart f t ys := by
  induction xs with
  | nil => exact fun t => rfl
  | cons x xs ih =>
    intro t
    rw [List.cons_append, eachPart, eachPart]
    cases f t x with
    | exc y => rfl
    | ret t1 => exact ih t1

theorem eachPart_map {α γ : Type} (f : WhoisTables → γ → Call WhoisTables) (g : α → γ) (xs : List α) : ∀ t, eachPart f t (xs.map g) =
    eachPart (fun t x => f t (g x)) t xs := by
  induction xs with
  | nil => exact fun t => rfl
  | cons x xs ih =>
    intro t
    rw [List.map_cons, eachPart, eachPart]
    cases f t (g x) with
    | exc y => rfl
    | ret t1 => exact ih t1

theorem trimmed_map {lines ls : List Bytes} (h : List.Forall₂ EndTrimmed lines ls) : lines.map pyRstrip = ls := by
  induction h with
  | nil => rfl
  | cons h _ ih => rw [List.map_cons, endTrimmed_iff.mp h, ih]

theorem importFeeds_parts (e : WhoisEnv) (source : CStr) {feeds : List WhoisFeed} {parts : List Part} (h : PartsOf feeds parts) :
    ∀ t, eachPart (importFeed e source) t feeds = eachPart (parsePart e source) t parts := by
  induction h with
  | nil => exact fun t => rfl
  | standard hl hb hr ih =>
    intro t
    rw [eachPart_append, eachPart_map, eachPart, importFeed, (blocks_of_file hl _).mpr hb]
    have : (fun t x => parsePart e source t (.block x)) = parseBlock e source := rfl
    rw [this]
    cases eachPart (parseBlock e source) t _ with
    | exc x => rfl
    | ret t1 => exact ih t1
  | extended hl ht hr ih =>
    intro t
    rw [eachPart_append, eachPart_map, eachPart, importFeed, fileLines_unique hl, trimmed_map ht]
    have : (fun t x => parsePart e source t (.line x)) = parseStat e source := rfl
    rw [this]
    cases eachPart (parseStat e source) t _ with
    | exc x => rfl
    | ret t1 => exact ih t1
  | arin hr ih =>
    intro t
    rw [eachPart_append, eachPart_map, eachPart, importFeed]
    have : (fun t x => parsePart e source t (.arin x)) = arinLine := rfl
    rw [this]
    cases eachPart arinLine t _ with
    | exc x => rfl
    | ret t1 => exact ih t1

theorem inBlocks_ne {lines : List Bytes} {bs : List (List Bytes)} (h : InBlocks lines bs) : ∀ ts ∈ bs, ts ≠ [] := by
  induction h with
  | nil => exact fun ts h => by cases h
  | remark _ _ ih => exact ih
  | blank _ _ ih => exact ih
  | block _ hne _ _ ih =>
    intro ts h
    rcases List.mem_cons.mp h with rfl | h
    · exact hne
    · exact ih ts h

theorem partsOf_ne {feeds : List WhoisFeed} {parts : List Part} (h : PartsOf feeds parts) : ∀ ts, .block ts ∈ parts → ts ≠ [] := by
  induction h with
  | nil => exact fun ts h => by cases h
  | standard hl hb hr ih =>
    intro ts h
    rcases List.mem_append.mp h with h | h
    · obtain ⟨x, hx, he⟩ := List.mem_map.mp h
      cases he
      exact inBlocks_ne hb ts hx
    · exact ih ts h
  | extended hl ht hr ih =>
    intro ts h
    rcases List.mem_append.mp h with h | h
    · obtain ⟨x, hx, he⟩ := List.mem_map.mp h
      cases he
    · exact ih ts h
  | arin hr ih =>
    intro ts h
    rcases List.mem_append.mp h with h | h
    · obtain ⟨x, hx, he⟩ := List.mem_map.mp h
      cases he
    · exact ih ts h

/-! ## One part -/

/-- The country of a network -/
def NetCountry (t : WhoisTables) (n : Network) (c : Option CStr) : Prop := ∃ s, (n, c, s) ∈ t.networks
/-- The name of an AS -/
def AsNamed (t : WhoisTables) (k : Nat) (name : CStr) : Prop := ∃ s, (k, name, s) ∈ t.autnums
/-- A line of statistics as an entry -/
def StatEntry (e : WhoisEnv) (p : Part) (n : Network) (c : Option CStr) : Prop := ∃ cc, InLine (StatRow e) p n cc ∧ c = some cc
/-- Nothing -/
def Nothing {α κ β : Type} (_ : α) (_ : κ) (_ : β) : Prop := False

/-- No network occurs twice, and so on -/
def UniqueKeys (t : WhoisTables) : Prop :=
  (t.rirdata.map (·.1)).Nodup ∧ (t.tmpAutnums.map (·.1)).Nodup ∧ (t.tmpOrgs.map (·.1)).Nodup ∧ (t.networks.map (·.1)).Nodup

/-- The parts that the lemmas are about -/
def GoodPart (p : Part) : Prop := ∀ ts, p = .block ts → ts ≠ [] ∧ RangesSeparate ts

/-- What a table with key and value becomes -/
def Overlaid {κ β : Type} (T T' R1 R2 : κ → β → Prop) : Prop :=
  ∀ k v, T' k v ↔ R1 k v ∨ ((∀ v', ¬ R1 k v') ∧ (T k v ∨ ((∀ v', ¬ T k v') ∧ R2 k v)))

theorem overlaid_none {κ β : Type} {T R1 R2 : κ → β → Prop} (h1 : ∀ k v, ¬ R1 k v) (h2 : ∀ k v, ¬ R2 k v) : Overlaid T T R1 R2 := fun k v =>
  ⟨fun h => .inr ⟨h1 k, .inl h⟩, fun h => h.elim (fun h => absurd h (h1 k v)) fun h => h.2.elim id fun h => absurd h.2 (h2 k v)⟩

theorem overlaid_over {κ β : Type} {T T' R R1 R2 : κ → β → Prop} (h : ∀ k v, T' k v ↔ R k v ∨ ((∀ v', ¬ R k v') ∧ T k v))
    (h1 : ∀ k v, R1 k v ↔ R k v) (h2 : ∀ k v, ¬ R2 k v) : Overlaid T T' R1 R2 := by
  intro k v
  rw [h, h1]
  have : (∀ v', ¬ R1 k v') ↔ ∀ v', ¬ R k v' := forall_congr' fun v' => not_congr (h1 k v')
  rw [this]
  have := h2 k v
  tauto

structure PartEffect (e : WhoisEnv) (t t' : WhoisTables) (p : Part) : Prop where
  rirdata : Overlaid (fun n c => (n, c) ∈ t.rirdata) (fun n c => (n, c) ∈ t'.rirdata) (InBlock (Registers e) p) (Nothing p)
  tmpAutnums : Overlaid (fun n c => (n, c) ∈ t.tmpAutnums) (fun n c => (n, c) ∈ t'.tmpAutnums) (InBlock OwnedBy p) (Nothing p)
  tmpOrgs : Overlaid (fun n c => (n, c) ∈ t.tmpOrgs) (fun n c => (n, c) ∈ t'.tmpOrgs) (InBlock NamesOrg p) (InBlock Describes p)
  networks : Overlaid (NetCountry t) (NetCountry t') (StatEntry e p) (Nothing p)
  autnums : Overlaid (AsNamed t) (AsNamed t') (Nothing p) (InArin ArinNames p)
  keys : UniqueKeys t → UniqueKeys t'

theorem inBlock_block {κ β : Type} {R : List Bytes → κ → β → Prop} {ts : List Bytes} {k : κ} {v : β} : InBlock R (.block ts) k v ↔ R ts k v :=
  ⟨fun ⟨_, h, h'⟩ => by cases h; exact h', fun h => ⟨ts, rfl, h⟩⟩

theorem inLine_line {κ β : Type} {R : Bytes → κ → β → Prop} {s : Bytes} {k : κ} {v : β} : InLine R (.line s) k v ↔ R s k v :=
  ⟨fun ⟨_, h, h'⟩ => by cases h; exact h', fun h => ⟨s, rfl, h⟩⟩

theorem inArin_arin {κ β : Type} {R : ArinLine → κ → β → Prop} {l : ArinLine} {k : κ} {v : β} : InArin R (.arin l) k v ↔ R l k v :=
  ⟨fun ⟨_, h, h'⟩ => by cases h; exact h', fun h => ⟨l, rfl, h⟩⟩

theorem parsePart_cases (e : WhoisEnv) (source : CStr) (t : WhoisTables) {p : Part} (hp : GoodPart p) :
    (∃ t', parsePart e source t p = .ret t' ∧ PartEffect e t t' p) ∨ (∃ x, parsePart e source t p = .exc x ∧ FaultyPart e p) := by
  have hno : ∀ {α κ β : Type} {x : α} (k : κ) (v : β), ¬ Nothing x k v := fun _ _ h => h
  cases p with
  | block ts =>
    obtain ⟨h1, h2⟩ := hp ts rfl
    have hs : ∀ n c, ¬ StatEntry e (.block ts) n c := by
      rintro n c ⟨cc, ⟨s, hs, -⟩, -⟩
      cases hs
    have ha : ∀ {k : Nat} {v : CStr}, ¬ InArin ArinNames (.block ts) k v := by
      rintro k v ⟨s, hs, -⟩
      cases hs
    rcases parseBlock_cases (e := e) (source := source) (t := t) h1 h2 with ⟨t', g1, g2⟩ | ⟨x, g1, g2⟩
    · refine .inl ⟨t', g1, ⟨overlaid_over g2.rirdata (fun _ _ => inBlock_block) hno, overlaid_over g2.tmpAutnums (fun _ _ => inBlock_block) hno, ?_, ?_, ?_, ?_⟩⟩
      · intro h name
        simp only [inBlock_block]
        exact g2.tmpOrgs h name
      · have : NetCountry t' = NetCountry t := by
          unfold NetCountry
          rw [g2.networks]
        rw [this]
        exact overlaid_none hs hno
      · have : AsNamed t' = AsNamed t := by
          unfold AsNamed
          rw [g2.autnums]
        rw [this]
        exact overlaid_none hno fun _ _ => ha
      · rintro ⟨k1, k2, k3, k4⟩
        exact ⟨g2.keys.1 k1, g2.keys.2.1 k2, g2.keys.2.2 k3, by rw [g2.networks]; exact k4⟩
    · exact .inr ⟨x, g1, g2⟩
  | line s =>
    have hb : ∀ {κ β : Type} {R : List Bytes → κ → β → Prop} (k : κ) (v : β), ¬ InBlock R (.line s) k v := by
      rintro κ β R k v ⟨s, hs, -⟩
      cases hs
    have ha : ∀ (k : Nat) (v : CStr), ¬ InArin ArinNames (.line s) k v := by
      rintro k v ⟨s, hs, -⟩
      cases hs
    rcases parseStat_cases e source t s with ⟨g1, g2⟩ | ⟨n, cc, g1, g2⟩ | ⟨x, g1, g2⟩
    · refine .inl ⟨t, g1, ⟨overlaid_none hb hno, overlaid_none hb hno, overlaid_none hb hb, overlaid_none ?_ hno, overlaid_none hno ha, id⟩⟩
      rintro n c ⟨cc, h, -⟩
      exact g2 n cc (inLine_line.mp h)
    · refine .inl ⟨_, g2, ⟨overlaid_none hb hno, overlaid_none hb hno, overlaid_none hb hb, ?_, overlaid_none hno ha, ?_⟩⟩
      · refine overlaid_over (R := fun n' c => n' = n ∧ c = some cc) (fun n' c => ?_) (fun n' c => ?_) hno
        · unfold NetCountry
          simp only [mem_putOver]
          constructor
          · rintro ⟨s, ⟨rfl, ⟨old, -, h⟩ | ⟨-, h⟩⟩ | ⟨h, h'⟩⟩
            · cases h
              exact .inl ⟨rfl, rfl⟩
            · cases h
              exact .inl ⟨rfl, rfl⟩
            · exact .inr ⟨fun v' hv => h hv.1, s, h'⟩
          · rintro (⟨rfl, rfl⟩ | ⟨h, s, h'⟩)
            · by_cases hk : n' ∈ t.networks.map (·.1)
              · obtain ⟨⟨m, old⟩, hm, rfl⟩ := List.mem_map.mp hk
                exact ⟨old.2, .inl ⟨rfl, .inl ⟨old, hm, rfl⟩⟩⟩
              · exact ⟨source, .inl ⟨rfl, .inr ⟨hk, rfl⟩⟩⟩
            · exact ⟨s, .inr ⟨fun he => h (some cc) ⟨he, rfl⟩, h'⟩⟩
        · unfold StatEntry
          simp only [inLine_line, g1]
          constructor
          · rintro ⟨c', ⟨rfl, rfl⟩, rfl⟩
            exact ⟨rfl, rfl⟩
          · rintro ⟨rfl, rfl⟩
            exact ⟨cc, ⟨rfl, rfl⟩, rfl⟩
      · rintro ⟨k1, k2, k3, k4⟩
        exact ⟨k1, k2, k3, keys_putOver (set := fun old => (some cc, old.2)) k4⟩
    · exact .inr ⟨x, g1, g2⟩
  | arin l =>
    have hb : ∀ {κ β : Type} {R : List Bytes → κ → β → Prop} (k : κ) (v : β), ¬ InBlock R (.arin l) k v := by
      rintro κ β R k v ⟨s, hs, -⟩
      cases hs
    have hs : ∀ n c, ¬ StatEntry e (.arin l) n c := by
      rintro n c ⟨cc, ⟨s, hs, -⟩, -⟩
      cases hs
    rcases arinLine_cases t l with ⟨t', g1, g2, g3, g4, g5, g6, -⟩ | ⟨x, g1, g2⟩
    · refine .inl ⟨t', g1, ⟨?_, ?_, ?_, ?_, ?_, ?_⟩⟩
      · rw [g4]
        exact overlaid_none hb hno
      · rw [g5]
        exact overlaid_none hb hno
      · rw [g6]
        exact overlaid_none hb hb
      · have : NetCountry t' = NetCountry t := by
          unfold NetCountry
          rw [g3]
        rw [this]
        exact overlaid_none hs hno
      · intro k v
        refine (g2 k v).trans ?_
        rw [inArin_arin]
        constructor
        · exact fun h => .inr ⟨fun v' => hno k v', h⟩
        · exact fun h => h.elim (fun h => absurd h (hno k v)) fun h => h.2
      · rintro ⟨k1, k2, k3, k4⟩
        exact ⟨by rw [g4]; exact k1, by rw [g5]; exact k2, by rw [g6]; exact k3, by rw [g3]; exact k4⟩
    · exact .inr ⟨x, g1, g2⟩

theorem parsePart_ret {e : WhoisEnv} {source : CStr} {t t' : WhoisTables} {p : Part} (hp : GoodPart p) (h : parsePart e source t p = .ret t') :
    PartEffect e t t' p := by
  rcases parsePart_cases e source t hp with ⟨t1, h1, h2⟩ | ⟨x, h1, -⟩
  · rw [h] at h1
    cases h1
    exact h2
  · rw [h] at h1
    cases h1

theorem parsePart_exc {e : WhoisEnv} {source : CStr} {t : WhoisTables} {p : Part} {x : Exc} (hp : GoodPart p) (h : parsePart e source t p = .exc x) :
    FaultyPart e p := by
  rcases parsePart_cases e source t hp with ⟨t1, h1, h2⟩ | ⟨x, h1, h2⟩
  · rw [h] at h1
    cases h1
  · exact h2

/-! ## Names of autonomous systems -/

theorem find_org {orgs : List (CStr × CStr)} (hu : (orgs.map (·.1)).Nodup) (h : CStr) :
    (∃ name, orgs.find? (fun y => decide (y.1 = h)) = some (h, name) ∧ ∀ name', (h, name') ∈ orgs ↔ name' = name) ∨
    (orgs.find? (fun y => decide (y.1 = h)) = none ∧ ∀ name', (h, name') ∉ orgs) := by
  cases hf : orgs.find? (fun y => decide (y.1 = h)) with
  | none =>
    refine .inr ⟨rfl, fun name' hm => ?_⟩
    have := List.find?_eq_none.mp hf _ hm
    simp at this
  | some y =>
    obtain ⟨h', name⟩ := y
    have h1 := List.find?_some hf
    simp only [decide_eq_true_eq] at h1
    subst h1
    refine .inl ⟨name, rfl, fun name' => ⟨fun hm => ?_, ?_⟩⟩
    · exact keyed_value hu hm (List.mem_of_find?_eq_some hf)
    · rintro rfl
      exact List.mem_of_find?_eq_some hf

theorem joinAutnums_mem {source : CStr} {orgs : List (CStr × CStr)} (hu : (orgs.map (·.1)).Nodup) : ∀ (autnums : List (Nat × CStr)),
    (autnums.map (·.1)).Nodup → ∀ (t : List (Nat × CStr × CStr)) (k : Nat) (name : CStr),
    (∃ s, (k, name, s) ∈ joinAutnums source autnums orgs t) ↔ (∃ h, (k, h) ∈ autnums ∧ (h, name) ∈ orgs) ∨
      ((∀ name', ¬ ∃ h, (k, h) ∈ autnums ∧ (h, name') ∈ orgs) ∧ ∃ s, (k, name, s) ∈ t) := by
  intro autnums
  induction autnums with
  | nil =>
    intro _ t k name
    show (∃ s, (k, name, s) ∈ t) ↔ _
    constructor
    · exact fun h => .inr ⟨fun name' ⟨h, h', _⟩ => (by cases h'), h⟩
    · rintro (⟨h, h', -⟩ | ⟨-, h⟩)
      · cases h'
      · exact h
  | cons x autnums ih =>
    intro hk t k name
    obtain ⟨k0, h0⟩ := x
    rw [List.map_cons, List.nodup_cons] at hk
    obtain ⟨hk0, hk⟩ := hk
    have hk0' : ∀ h, (k0, h) ∉ autnums := fun h hm => hk0 (List.mem_map.mpr ⟨_, hm, rfl⟩)
    have step := ih hk
    rcases find_org hu h0 with ⟨nm, hf, hm⟩ | ⟨hf, hm⟩
    · have he : joinAutnums source ((k0, h0) :: autnums) orgs t =
          joinAutnums source autnums orgs (putOver t k0 (nm, source) fun old => (nm, old.2)) := by
        simp only [joinAutnums, List.foldl_cons, hf]
      rw [he, step]
      have hput : (∃ s, (k, name, s) ∈ putOver t k0 (nm, source) fun old => (nm, old.2)) ↔
          (k = k0 ∧ name = nm) ∨ (k ≠ k0 ∧ ∃ s, (k, name, s) ∈ t) := by
        simp only [mem_putOver]
        constructor
        · rintro ⟨s, ⟨rfl, ⟨old, -, h⟩ | ⟨-, h⟩⟩ | ⟨h, h'⟩⟩
          · cases h
            exact .inl ⟨rfl, rfl⟩
          · cases h
            exact .inl ⟨rfl, rfl⟩
          · exact .inr ⟨h, s, h'⟩
        · rintro (⟨rfl, rfl⟩ | ⟨h, s, h'⟩)
          · by_cases hk : k ∈ t.map (·.1)
            · obtain ⟨⟨m, old⟩, hm, rfl⟩ := List.mem_map.mp hk
              exact ⟨old.2, .inl ⟨rfl, .inl ⟨old, hm, rfl⟩⟩⟩
            · exact ⟨source, .inl ⟨rfl, .inr ⟨hk, rfl⟩⟩⟩
          · exact ⟨s, .inr ⟨h, h'⟩⟩
      rw [hput]
      by_cases hkk : k = k0
      · subst hkk
        have e1 : ∀ name', (∃ h, (k, h) ∈ (k, h0) :: autnums ∧ (h, name') ∈ orgs) ↔ name' = nm := by
          intro name'
          constructor
          · rintro ⟨h, h1, h2⟩
            rcases List.mem_cons.mp h1 with h1 | h1
            · cases h1
              exact (hm name').mp h2
            · exact absurd h1 (hk0' h)
          · rintro rfl
            exact ⟨h0, List.mem_cons_self, (hm _).mpr rfl⟩
        have e2 : ∀ name', ¬ ∃ h, (k, h) ∈ autnums ∧ (h, name') ∈ orgs := fun name' ⟨h, h1, _⟩ => hk0' h h1
        rw [e1]
        constructor
        · rintro (h | ⟨-, ⟨-, h⟩ | ⟨h, -⟩⟩)
          · exact absurd h (e2 _)
          · exact .inl h
          · exact absurd rfl h
        · rintro (h | ⟨h, -⟩)
          · exact .inr ⟨e2, .inl ⟨rfl, h⟩⟩
          · exact absurd ((e1 nm).mpr rfl) (h nm)
      · have e1 : ∀ name', (∃ h, (k, h) ∈ (k0, h0) :: autnums ∧ (h, name') ∈ orgs) ↔ ∃ h, (k, h) ∈ autnums ∧ (h, name') ∈ orgs := by
          intro name'
          constructor
          · rintro ⟨h, h1, h2⟩
            rcases List.mem_cons.mp h1 with h1 | h1
            · cases h1
              exact absurd rfl hkk
            · exact ⟨h, h1, h2⟩
          · rintro ⟨h, h1, h2⟩
            exact ⟨h, List.mem_cons_of_mem _ h1, h2⟩
        simp only [e1, hkk, false_and, false_or, ne_eq, not_false_eq_true, true_and]
    · have he : joinAutnums source ((k0, h0) :: autnums) orgs t = joinAutnums source autnums orgs t := by
        simp only [joinAutnums, List.foldl_cons, hf]
      rw [he, step]
      have e1 : ∀ name', (∃ h, (k, h) ∈ (k0, h0) :: autnums ∧ (h, name') ∈ orgs) ↔ ∃ h, (k, h) ∈ autnums ∧ (h, name') ∈ orgs := by
        intro name'
        constructor
        · rintro ⟨h, h1, h2⟩
          rcases List.mem_cons.mp h1 with h1 | h1
          · cases h1
            exact absurd h2 (hm _)
          · exact ⟨h, h1, h2⟩
        · rintro ⟨h, h1, h2⟩
          exact ⟨h, List.mem_cons_of_mem _ h1, h2⟩
      simp only [e1]

/-! ## A source -/

/-- What the files of a source leave behind -/
structure SourceRead (e : WhoisEnv) (source : CStr) (parts : List Part) (t t' : WhoisTables) : Prop where
  rirdata : ∀ n c, (n, c) ∈ t'.rirdata ↔ Registered e parts n c
  networks : ∀ n c, NetCountry t' n c ↔ Given e source parts t.networks n c
  owned : ∀ k h, (k, h) ∈ t'.tmpAutnums ↔ LastSays (InBlock OwnedBy) parts k h
  orgs : ∀ h name, (h, name) ∈ t'.tmpOrgs ↔ OrgName parts h name
  names : ∀ k name, AsNamed t' k name ↔ (∃ s, (k, name, s) ∈ t.autnums ∧ s ≠ source) ∨
    ((∀ name' s, (k, name', s) ∈ t.autnums → s = source) ∧ FirstSays (InArin ArinNames) parts k name)
  keys : UniqueKeys t'

theorem nothing_last {α κ β : Type} {parts : List α} {k : κ} {v : β} : ¬ LastSays Nothing parts k v := by
  rintro ⟨pre, y, post, -, h, -⟩
  exact h

theorem nothing_first {α κ β : Type} {parts : List α} {k : κ} {v : β} : ¬ FirstSays Nothing parts k v := by
  rintro ⟨pre, y, post, -, h, -⟩
  exact h

theorem statEntry_last {e : WhoisEnv} {parts : List Part} {n : Network} {c : Option CStr} :
    LastSays (StatEntry e) parts n c ↔ ∃ cc, LastSays (InLine (StatRow e)) parts n cc ∧ c = some cc := by
  constructor
  · rintro ⟨pre, y, post, rfl, ⟨cc, h, rfl⟩, h2⟩
    exact ⟨cc, ⟨pre, y, post, rfl, h, fun z hz v' hv => h2 z hz (some v') ⟨v', hv, rfl⟩⟩, rfl⟩
  · rintro ⟨cc, ⟨pre, y, post, rfl, h, h2⟩, rfl⟩
    refine ⟨pre, y, post, rfl, ⟨cc, h, rfl⟩, ?_⟩
    rintro z hz v' ⟨cc', hv, -⟩
    exact h2 z hz cc' hv

theorem statEntry_none {e : WhoisEnv} {parts : List Part} {n : Network} : NoneSays (StatEntry e) parts n ↔ NoneSays (InLine (StatRow e)) parts n :=
  ⟨fun h x hx v hv => h x hx (some v) ⟨v, hv, rfl⟩, fun h x hx v ⟨cc, hv, _⟩ => h x hx cc hv⟩

theorem source_rest {α β : Type} {t : List (α × β × CStr)} {source : CStr} {k : α} {v : β} :
    (∃ s, (k, v, s) ∈ t.filter fun x => decide (x.2.2 ≠ source)) ↔ ∃ s, (k, v, s) ∈ t ∧ s ≠ source := by
  simp only [List.mem_filter, decide_eq_true_eq]

theorem sourceRead {e : WhoisEnv} {source : CStr} {feeds : List WhoisFeed} {parts : List Part} {t t' : WhoisTables} (hp : PartsOf feeds parts)
    (hsep : ∀ ts, .block ts ∈ parts → RangesSeparate ts) (hut : UniqueNetworks t.networks)
    (h : eachPart (importFeed e source) (startSource source t) feeds = .ret t') : SourceRead e source parts t t' := by
  rw [importFeeds_parts e source hp] at h
  have hg : ∀ p ∈ parts, GoodPart p := by
    rintro p hm ts rfl
    exact ⟨partsOf_ne hp ts hm, hsep ts hm⟩
  refine ⟨fun n c => ?_, fun n c => ?_, fun k hd => ?_, fun hd name => ?_, fun k name => ?_, ?_⟩
  · have := each_table (T := fun t n c => (n, c) ∈ t.rirdata) (R1 := InBlock (Registers e)) (R2 := Nothing) (P := GoodPart)
      (fun t x t' hx hf => (parsePart_ret hx hf).rirdata) parts _ t' hg h n c
    rw [this]
    constructor
    · rintro (h | ⟨-, h | ⟨-, h⟩⟩)
      · exact h
      · cases h
      · exact absurd h nothing_first
    · exact .inl
  · have := each_table (T := NetCountry) (R1 := StatEntry e) (R2 := Nothing) (P := GoodPart)
      (fun t x t' hx hf => (parsePart_ret hx hf).networks) parts _ t' hg h n c
    rw [this, statEntry_last, statEntry_none]
    have hst : ∀ c, NetCountry (startSource source t) n c ↔ ∃ s, (n, c, s) ∈ t.networks ∧ s ≠ source := fun c => source_rest
    rw [hst]
    constructor
    · rintro (h | ⟨h1, h | ⟨-, h⟩⟩)
      · exact .inl h
      · exact .inr ⟨h1, h⟩
      · exact absurd h nothing_first
    · rintro (h | ⟨h1, h⟩)
      · exact .inl h
      · exact .inr ⟨h1, .inl h⟩
  · have := each_table (T := fun t n c => (n, c) ∈ t.tmpAutnums) (R1 := InBlock OwnedBy) (R2 := Nothing) (P := GoodPart)
      (fun t x t' hx hf => (parsePart_ret hx hf).tmpAutnums) parts _ t' hg h k hd
    rw [this]
    constructor
    · rintro (h | ⟨-, h | ⟨-, h⟩⟩)
      · exact h
      · cases h
      · exact absurd h nothing_first
    · exact .inl
  · have := each_table (T := fun t n c => (n, c) ∈ t.tmpOrgs) (R1 := InBlock NamesOrg) (R2 := InBlock Describes) (P := GoodPart)
      (fun t x t' hx hf => (parsePart_ret hx hf).tmpOrgs) parts _ t' hg h hd name
    rw [this]
    constructor
    · rintro (h | ⟨h1, h | ⟨-, h⟩⟩)
      · exact .inl h
      · cases h
      · exact .inr ⟨h1, h⟩
    · rintro (h | ⟨h1, h⟩)
      · exact .inl h
      · exact .inr ⟨h1, .inr ⟨fun v' hv => (by cases hv), h⟩⟩
  · have := each_table (T := AsNamed) (R1 := Nothing) (R2 := InArin ArinNames) (P := GoodPart)
      (fun t x t' hx hf => (parsePart_ret hx hf).autnums) parts _ t' hg h k name
    rw [this]
    have hst : ∀ c, AsNamed (startSource source t) k c ↔ ∃ s, (k, c, s) ∈ t.autnums ∧ s ≠ source := fun c => source_rest
    simp only [hst]
    have hnone : (∀ v', ¬ ∃ s, (k, v', s) ∈ t.autnums ∧ s ≠ source) ↔ ∀ name' s, (k, name', s) ∈ t.autnums → s = source := by
      constructor
      · exact fun h name' s hm => Classical.byContradiction fun hs => h name' ⟨s, hm, hs⟩
      · rintro h v' ⟨s, hm, hs⟩
        exact hs (h v' s hm)
    rw [hnone]
    constructor
    · rintro (h | ⟨-, h⟩)
      · exact absurd h nothing_last
      · exact h
    · exact fun h => .inr ⟨fun x _ _ hv => hv, h⟩
  · refine each_keys (K := UniqueKeys) (P := GoodPart) (fun t x t' hx hf => (parsePart_ret hx hf).keys) parts _ t' hg h
      ⟨List.nodup_nil, List.nodup_nil, List.nodup_nil, ?_⟩
    exact hut.sublist (List.filter_sublist.map _)

theorem sourceRead_exc {e : WhoisEnv} {source : CStr} {feeds : List WhoisFeed} {parts : List Part} {t : WhoisTables} {x : Exc} (hp : PartsOf feeds parts)
    (hsep : ∀ ts, .block ts ∈ parts → RangesSeparate ts) (h : eachPart (importFeed e source) t feeds = .exc x) : ∃ p ∈ parts, FaultyPart e p := by
  rw [importFeeds_parts e source hp] at h
  refine each_exc (P := GoodPart) (fun t x y hx hf => parsePart_exc hx hf) parts t x ?_ h
  rintro p hm ts rfl
  exact ⟨partsOf_ne hp ts hm, hsep ts hm⟩

end Loc
