import Verif.Lemmas.WhoisObjects
/-
Lemmas about the data of the registries: what an object changes in the tables.
-/
namespace Loc
open Spec Props

theorem keys_putConst {κ β : Type} [DecidableEq κ] {t : List (κ × β)} {k : κ} {v : β} (h : (t.map (·.1)).Nodup) :
    ((putOver t k v fun _ => v).map (·.1)).Nodup := keys_putOver h

/-! ## The first line -/

theorem objectOf_head {key : String} (h58 : 58 ∉ ascii key) {line : Bytes} {more : List Bytes} (h : ObjectOf key (line :: more)) :
    line.takeWhile (· ≠ 58) = ascii key := by
  obtain ⟨r, m, he⟩ := h
  cases he
  exact (split_byte h58).1

theorem objectOf_same {key key' : String} (h58 : 58 ∉ ascii key) (h58' : 58 ∉ ascii key') {block : List Bytes} (h : ObjectOf key block)
    (h' : ObjectOf key' block) : ascii key = ascii key' := by
  cases block with
  | nil => exact absurd h objectOf_nil
  | cons line more => rw [← objectOf_head h58 h, objectOf_head h58' h']

theorem objectOf_attr {key : String} (h58 : 58 ∉ ascii key) (hs : pyStrip (ascii key) = ascii key) {block : List Bytes} (h : ObjectOf key block) :
    ¬ NoAttr (block.map splitLine) key := by
  intro hn
  cases block with
  | nil => exact absurd h objectOf_nil
  | cons line more =>
    refine hn (splitLine line) List.mem_cons_self ?_
    show pyStrip (line.takeWhile (· ≠ 58)) = _
    rw [objectOf_head h58 h, hs]

theorem no58 : 58 ∉ ascii "inetnum" ∧ 58 ∉ ascii "inet6num" ∧ 58 ∉ ascii "aut-num" ∧ 58 ∉ ascii "organisation" := by
  refine ⟨?_, ?_, ?_, ?_⟩ <;> decide

/-! ## Networks -/

theorem registers_iff {e : WhoisEnv} {block : List Bytes} {n : Network} {c : Option CStr} : Registers e block n c ↔
    (ObjectOf "inetnum" block ∨ ObjectOf "inet6num" block) ∧
    (∀ v, (ascii "netname", v) ∈ block.map splitLine → ¬ Historic v) ∧ (∀ v, (ascii "inetnum", v) ∈ block.map splitLine → ∃ a b, NamesRange v a b) ∧
    AboutNetwork (block.map splitLine) n ∧ Acceptable e n ∧ FirstCountry e (block.map splitLine) c := by
  unfold Registers
  constructor
  · rintro ⟨h, attrs, ha, h'⟩
    rw [attributes_iff] at ha
    subst ha
    exact ⟨h, h'⟩
  · rintro ⟨h, h'⟩
    exact ⟨h, _, attributes_iff.mpr rfl, h'⟩

/-- What an object about networks changes -/
theorem parseInetnum_cases {e : WhoisEnv} {source : CStr} {t : WhoisTables} {block : List Bytes} (ho : ObjectOf "inetnum" block ∨ ObjectOf "inet6num" block)
    (hsep : RangesSeparate block) :
    (∃ t', parseInetnum e source t block = .ret t' ∧
      (∀ n c, (n, c) ∈ t'.rirdata ↔ Registers e block n c ∨ ((∀ c', ¬ Registers e block n c') ∧ (n, c) ∈ t.rirdata)) ∧
      t'.networks = t.networks ∧ t'.autnums = t.autnums ∧ t'.tmpAutnums = t.tmpAutnums ∧ t'.tmpOrgs = t.tmpOrgs ∧
      ((t.rirdata.map (·.1)).Nodup → (t'.rirdata.map (·.1)).Nodup)) ∨
    (∃ x, parseInetnum e source t block = .exc x ∧ FaultyNetwork block) := by
  unfold parseInetnum
  have hsep' := hsep _ (attributes_iff.mpr rfl)
  cases hl : inetLines e ⟨none, none, [], none⟩ block with
  | exc x =>
    refine .inr ⟨_, rfl, ho, _, attributes_iff.mpr rfl, ?_⟩
    rcases inetLines_exc hl with ⟨v, h1, x, h2⟩ | ⟨v, h1, h2⟩
    · exact .inr ⟨v, h1, inetNetworks_exc h2 fun a b hab => hsep' v a b h1 hab⟩
    · refine .inl ⟨v, h1, fun n hn => ?_⟩
      rw [ipNetwork_iff.mpr hn] at h2
      cases h2
  | ret r =>
    cases r with
    | none =>
      refine .inl ⟨t, rfl, fun n c => ?_, rfl, rfl, rfl, rfl, id⟩
      have hno : ∀ c', ¬ Registers e block n c' := by
        intro c' hr
        obtain ⟨-, h1, h2, -⟩ := registers_iff.mp hr
        rcases inetLines_none hl with ⟨v, g1, g2⟩ | ⟨v, g1, g2⟩
        · exact h1 v g1 g2
        · obtain ⟨a, b, hab⟩ := h2 v g1
          exact inetNetworks_none g2 a b hab
      exact ⟨fun h => .inr ⟨hno, h⟩, fun h => h.elim (fun h => absurd h (hno c)) fun h => h.2⟩
    | some d =>
      have hs := inetLines_some hl
      have hl' : ∃ l, d.net6.or d.net = some l ∧ ∀ n, n ∈ l ↔ AboutNetwork (block.map splitLine) n := by
        rcases hs.net6 with ⟨g1, g2⟩ | ⟨v, n0, g1, g2, g3⟩
        · have ho' : ¬ NoAttr (block.map splitLine) "inetnum" := by
            rcases ho with h | h
            · exact objectOf_attr no58.1 (by decide) h
            · exact absurd g1 (objectOf_attr no58.2.1 (by decide) h)
          rcases hs.net with ⟨f1, -⟩ | ⟨v, l, f1, f2, f3⟩
          · exact absurd f1 ho'
          · refine ⟨l, by rw [g2, f3]; rfl, fun n => ?_⟩
            obtain ⟨a, b, hab, hsum⟩ := inetNetworks_some f2
            obtain ⟨hle, hfam⟩ := summarize_valid hsum
            obtain ⟨ns, e1, e2, -⟩ := summarizeRange_ret (hsep' v a b (lastAttr_mem f1) hab hle hfam) hle
            rw [hsum] at e1
            cases e1
            rw [e2]
            constructor
            · exact fun h => .inr ⟨g1, v, a, b, f1, hab, h⟩
            · rintro (⟨w, h1, -⟩ | ⟨-, w, a', b', h1, h2, h3⟩)
              · exact absurd h1 (noAttr_not_last g1)
              · obtain rfl := lastAttr_unique f1 h1
                obtain ⟨rfl, rfl⟩ := namesRange_unique hab h2
                exact h3
        · refine ⟨[n0], by rw [g3]; rfl, fun n => ?_⟩
          rw [List.mem_singleton]
          constructor
          · rintro rfl
            exact .inl ⟨v, g1, ipNetwork_iff.mp g2⟩
          · rintro (⟨w, h1, h2⟩ | ⟨h1, -⟩)
            · obtain rfl := lastAttr_unique g1 h1
              exact namesNet_unique h2 (ipNetwork_iff.mp g2)
            · exact absurd g1 (noAttr_not_last h1)
      obtain ⟨l, h1, h2⟩ := hl'
      have hne : d ≠ ⟨none, none, [], none⟩ := by
        rintro rfl
        cases h1
      left
      simp only [if_neg hne, h1]
      obtain ⟨f1, f2, f3, f4, f5⟩ := store_frame e source d l t
      refine ⟨_, rfl, fun n c => ?_, f1, f2, f3, f4, f5⟩
      rw [store_mem]
      have hbare : AboutNetwork (block.map splitLine) n → BareNetwork n := by
        rintro (⟨v, -, h⟩ | ⟨-, v, a, b, -, -, h⟩)
        · exact names_bare h
        · exact h.1
      have hreg : ∀ c, Registers e block n c ↔ (n ∈ l ∧ checkNetwork e n = true) ∧ c = d.countries.head? := by
        intro c
        rw [registers_iff, h2, firstCountry_iff, hs.countries, List.nil_append]
        constructor
        · rintro ⟨-, -, -, g1, g2, g3⟩
          exact ⟨⟨g1, (checkNetwork_iff (hbare g1)).mpr g2⟩, g3.symm⟩
        · rintro ⟨⟨g1, g2⟩, g3⟩
          refine ⟨ho, hs.netname, fun v hv => ?_, g1, (checkNetwork_iff (hbare g1)).mp g2, g3.symm⟩
          obtain ⟨l', hl'⟩ := hs.inetnum v hv
          obtain ⟨a, b, hab, -⟩ := inetNetworks_some hl'
          exact ⟨a, b, hab⟩
      rw [hreg]
      have : (∀ c', ¬ Registers e block n c') ↔ ¬ (n ∈ l ∧ checkNetwork e n = true) := by
        constructor
        · intro h hc
          exact h _ ((hreg _).mpr ⟨hc, rfl⟩)
        · intro h c' hc
          exact h ((hreg c').mp hc).1
      rw [this]

/-! ## Autonomous systems -/

theorem firstAttr_cons {x : Bytes × Bytes} {attrs : List (Bytes × Bytes)} {key : String} {v : Bytes} :
    FirstAttr (x :: attrs) key v ↔ x = (ascii key, v) ∨ (x.1 ≠ ascii key ∧ FirstAttr attrs key v) := by
  unfold FirstAttr
  constructor
  · rintro ⟨pre, post, he, hp⟩
    cases pre with
    | nil =>
      cases he
      exact .inl rfl
    | cons y pre =>
      cases he
      exact .inr ⟨hp _ List.mem_cons_self, pre, post, rfl, fun z hz => hp z (List.mem_cons_of_mem _ hz)⟩
  · rintro (rfl | ⟨h, pre, post, rfl, hp⟩)
    · exact ⟨[], attrs, rfl, fun z hz => by cases hz⟩
    · refine ⟨x :: pre, post, rfl, fun z hz => ?_⟩
      rcases List.mem_cons.mp hz with rfl | hz
      · exact h
      · exact hp z hz

theorem noAttr_not_first {attrs : List (Bytes × Bytes)} {key : String} {v : Bytes} (h : NoAttr attrs key) : ¬ FirstAttr attrs key v := by
  rintro ⟨pre, post, rfl, -⟩
  exact h _ (List.mem_append_right _ List.mem_cons_self) rfl

theorem firstAttr_unique {attrs : List (Bytes × Bytes)} {key : String} {v w : Bytes} (h1 : FirstAttr attrs key v) (h2 : FirstAttr attrs key w) : v = w := by
  induction attrs with
  | nil =>
    obtain ⟨pre, post, he, -⟩ := h1
    cases pre <;> cases he
  | cons x attrs ih =>
    rw [firstAttr_cons] at h1 h2
    rcases h1 with rfl | ⟨g1, h1⟩
    · rcases h2 with e | ⟨g2, -⟩
      · cases e
        rfl
      · exact absurd rfl g2
    · rcases h2 with e | ⟨-, h2⟩
      · rw [e] at g1
        exact absurd rfl g1
      · exact ih h1 h2

theorem asDigits_exists {l : List (Bytes × Bytes)} : ∀ {y : Bytes × Bytes} {d : Bytes}, y ∈ l → y.1 = ascii "aut-num" → AsnText y.2 d →
    ∃ d', AsDigits l d' := by
  induction l with
  | nil => intro y d hy; cases hy
  | cons z l ih =>
    intro y d hy hk hd
    by_cases hl : ∃ d', AsDigits l d'
    · obtain ⟨d2, pre, v, post, rfl, g1, g2⟩ := hl
      exact ⟨d2, z :: pre, v, post, rfl, g1, g2⟩
    · rcases List.mem_cons.mp hy with rfl | hy
      · exact ⟨d, [], y.2, l, by rw [← hk]; rfl, hd, fun w hw hwk d3 hd3 => hl (ih hw hwk hd3)⟩
      · exact absurd (ih hy hk hd) hl

theorem asDigits_cons {x : Bytes × Bytes} {attrs : List (Bytes × Bytes)} {d : Bytes} :
    AsDigits (x :: attrs) d ↔ AsDigits attrs d ∨ ((∀ d', ¬ AsDigits attrs d') ∧ x.1 = ascii "aut-num" ∧ AsnText x.2 d) := by
  constructor
  · rintro ⟨pre, v, post, he, hv, hp⟩
    cases pre with
    | nil =>
      cases he
      refine .inr ⟨?_, rfl, hv⟩
      rintro d' ⟨pre', v', post', rfl, hv', -⟩
      exact hp _ (List.mem_append_right _ List.mem_cons_self) rfl d' hv'
    | cons y pre =>
      cases he
      exact .inl ⟨pre, v, post, rfl, hv, hp⟩
  · rintro (⟨pre, v, post, rfl, hv, hp⟩ | ⟨h, h1, h2⟩)
    · exact ⟨x :: pre, v, post, rfl, hv, hp⟩
    · refine ⟨[], x.2, attrs, by rw [← h1]; rfl, h2, fun y hy hk d' hd' => ?_⟩
      obtain ⟨d2, hd2⟩ := asDigits_exists hy hk hd'
      exact h d2 hd2

theorem asDigits_nil {d : Bytes} : ¬ AsDigits [] d := by
  rintro ⟨pre, v, post, he, -⟩
  cases pre <;> cases he

theorem asDigits_unique {attrs : List (Bytes × Bytes)} {d d' : Bytes} (h1 : AsDigits attrs d) (h2 : AsDigits attrs d') : d = d' := by
  induction attrs with
  | nil => exact absurd h1 asDigits_nil
  | cons x attrs ih =>
    rw [asDigits_cons] at h1 h2
    rcases h1 with h1 | ⟨g1, -, h1⟩
    · rcases h2 with h2 | ⟨g2, -⟩
      · exact ih h1 h2
      · exact absurd h1 (g2 _)
    · rcases h2 with h2 | ⟨-, -, h2⟩
      · exact absurd h2 (g1 _)
      · have := asnDigits_iff.mpr h1
        rw [asnDigits_iff.mpr h2] at this
        cases this
        rfl

theorem isDigit_decVal {c : Byte} (h : IsDigit c) : ∃ x, decVal c = some x := by
  have : ((digitOf c).any fun d => decide (d < 10)) = true → (decVal c).isSome = true :=
    forall_byte (P := fun c => ((digitOf c).any fun d => decide (d < 10)) = true → (decVal c).isSome = true) (by decide +kernel) c
  obtain ⟨d, h1, h2⟩ := h
  rw [h1] at this
  exact Option.isSome_iff_exists.mp (this (by simpa using h2))

theorem mapM_some {s : Bytes} (h : ∀ c ∈ s, IsDigit c) : ∃ ds, s.mapM decVal = some ds := by
  induction s with
  | nil => exact ⟨[], rfl⟩
  | cons c s ih =>
    obtain ⟨x, hx⟩ := isDigit_decVal (h c List.mem_cons_self)
    obtain ⟨ds, hds⟩ := ih fun c hc => h c (List.mem_cons_of_mem _ hc)
    exact ⟨x :: ds, by rw [List.mapM_cons, hx, hds]; rfl⟩

theorem asDigits_number {attrs : List (Bytes × Bytes)} {d : Bytes} (h : AsDigits attrs d) : ∃ k, digitsOf d = some k := by
  obtain ⟨-, v, -, -, ⟨p, rest, -, -, hne, hd, -⟩, -⟩ := h
  obtain ⟨ds, hds⟩ := mapM_some hd
  refine ⟨ds.foldl (fun acc d => acc * 10 + d) 0, ?_⟩
  unfold digitsOf
  cases d with
  | nil => exact absurd rfl hne
  | cons c s =>
    simp only [List.isEmpty_cons, Bool.false_eq_true, if_false, hds, Option.map_some]

/-- What the lines of an object about an AS collect -/
structure AsSteps (d d' : AutnumObject) (attrs : List (Bytes × Bytes)) : Prop where
  asn : (∃ x, AsDigits attrs x ∧ d'.asn = some x) ∨ ((∀ x, ¬ AsDigits attrs x) ∧ d'.asn = d.asn)
  org : (∃ v, LastAttr attrs "org" v ∧ d'.org = some (v.map upper)) ∨ (NoAttr attrs "org" ∧ d'.org = d.org)
  descr : (d.descr ≠ none ∧ d'.descr = d.descr) ∨
    (d.descr = none ∧ ((∃ v, FirstAttr attrs "descr" v ∧ d'.descr = some v) ∨ (NoAttr attrs "descr" ∧ d'.descr = none)))

theorem keys_differ : ascii "aut-num" ≠ ascii "org" ∧ ascii "aut-num" ≠ ascii "descr" ∧ ascii "org" ≠ ascii "descr" ∧
    ascii "organisation" ≠ ascii "org-name" := by
  refine ⟨?_, ?_, ?_, ?_⟩ <;> decide

/-- One line -/
theorem autnumLine_steps {d d1 d' : AutnumObject} {x : Bytes × Bytes} {attrs : List (Bytes × Bytes)} (h : AsSteps d1 d' attrs)
    (ha : (x.1 = ascii "aut-num" ∧ ∃ y, AsnText x.2 y ∧ d1.asn = some y) ∨
      ((x.1 = ascii "aut-num" → ∀ y, ¬ AsnText x.2 y) ∧ d1.asn = d.asn))
    (ho : (x.1 = ascii "org" ∧ d1.org = some (x.2.map upper)) ∨ (x.1 ≠ ascii "org" ∧ d1.org = d.org))
    (hd : (x.1 = ascii "descr" ∧ d.descr = none ∧ d1.descr = some x.2) ∨ ((x.1 = ascii "descr" → d.descr ≠ none) ∧ d1.descr = d.descr)) :
    AsSteps d d' (x :: attrs) := by
  refine ⟨?_, ?_, ?_⟩
  · rcases h.asn with ⟨y, h1, h2⟩ | ⟨h1, h2⟩
    · exact .inl ⟨y, asDigits_cons.mpr (.inl h1), h2⟩
    · rcases ha with ⟨g1, y, g2, g3⟩ | ⟨g1, g2⟩
      · exact .inl ⟨y, asDigits_cons.mpr (.inr ⟨h1, g1, g2⟩), by rw [h2, g3]⟩
      · refine .inr ⟨fun y hy => ?_, by rw [h2, g2]⟩
        rcases asDigits_cons.mp hy with hy | ⟨-, e1, e2⟩
        · exact h1 y hy
        · exact g1 e1 y e2
  · rcases h.org with ⟨y, h1, h2⟩ | ⟨h1, h2⟩
    · exact .inl ⟨y, lastAttr_cons.mpr (.inl h1), h2⟩
    · rcases ho with ⟨g1, g2⟩ | ⟨g1, g2⟩
      · exact .inl ⟨x.2, lastAttr_cons.mpr (.inr ⟨h1, by rw [← g1]⟩), by rw [h2, g2]⟩
      · exact .inr ⟨noAttr_cons.mpr ⟨g1, h1⟩, by rw [h2, g2]⟩
  · rcases hd with ⟨g1, g2, g3⟩ | ⟨g1, g2⟩
    · refine .inr ⟨g2, .inl ⟨x.2, firstAttr_cons.mpr (.inl (by rw [← g1])), ?_⟩⟩
      rcases h.descr with ⟨-, h2⟩ | ⟨h1, -⟩
      · rw [h2, g3]
      · rw [g3] at h1
        cases h1
    · rcases h.descr with ⟨h1, h2⟩ | ⟨h1, h2⟩
      · rw [g2] at h1 h2
        exact .inl ⟨h1, h2⟩
      · rw [g2] at h1
        have hne : x.1 ≠ ascii "descr" := fun he => g1 he h1
        refine .inr ⟨h1, ?_⟩
        rcases h2 with ⟨v, e1, e2⟩ | ⟨e1, e2⟩
        · exact .inl ⟨v, firstAttr_cons.mpr (.inr ⟨hne, e1⟩), e2⟩
        · exact .inr ⟨noAttr_cons.mpr ⟨hne, e1⟩, e2⟩

theorem autnumLines_steps (block : List Bytes) : ∀ d, AsSteps d (autnumLines d block) (block.map splitLine) := by
  obtain ⟨-, -, -, -, k1, k2, k3, -, -⟩ := ascii_keys
  obtain ⟨d1, d2, d3, -⟩ := keys_differ
  induction block with
  | nil =>
    intro d
    refine ⟨.inr ⟨fun x => asDigits_nil, rfl⟩, .inr ⟨fun x hx => (by cases hx), rfl⟩, ?_⟩
    by_cases h : d.descr = none
    · exact .inr ⟨h, .inr ⟨fun x hx => (by cases hx), h⟩⟩
    · exact .inl ⟨h, rfl⟩
  | cons line rest ih =>
    intro d
    rw [List.map_cons]
    by_cases h1 : (splitLine line).1 = ascii "aut-num"
    · have ho : (splitLine line).1 ≠ ascii "org" := by rw [h1]; exact d1
      have hd : (splitLine line).1 ≠ ascii "descr" := by rw [h1]; exact d2
      have h1' : (splitLine line).1 = strAutnum := by rw [h1, k1]
      cases hy : asnDigits (splitLine line).2 with
      | none =>
        have he : autnumLines d (line :: rest) = autnumLines d rest := by
          simp only [autnumLines, h1', if_true, hy]
        rw [he]
        refine autnumLine_steps (ih d) (.inr ⟨fun _ y hy' => ?_, rfl⟩) (.inr ⟨ho, rfl⟩) (.inr ⟨fun h => absurd h hd, rfl⟩)
        rw [asnDigits_iff.mpr hy'] at hy
        cases hy
      | some y =>
        have he : autnumLines d (line :: rest) = autnumLines { d with asn := some y } rest := by
          simp only [autnumLines, h1', if_true, hy]
        rw [he]
        exact autnumLine_steps (ih _) (.inl ⟨h1, y, asnDigits_iff.mp hy, rfl⟩) (.inr ⟨ho, rfl⟩) (.inr ⟨fun h => absurd h hd, rfl⟩)
    · have h1' : (splitLine line).1 ≠ strAutnum := by rw [← k1]; exact h1
      by_cases h2 : (splitLine line).1 = ascii "org"
      · have hd : (splitLine line).1 ≠ ascii "descr" := by rw [h2]; exact d3
        have h2' : (splitLine line).1 = strOrg := by rw [h2, k2]
        have he : autnumLines d (line :: rest) = autnumLines { d with org := some (pyUpper (splitLine line).2) } rest := by
          simp only [autnumLines, if_neg h1', if_pos h2']
        rw [he]
        exact autnumLine_steps (ih _) (.inr ⟨fun h => absurd h h1, rfl⟩) (.inl ⟨h2, rfl⟩) (.inr ⟨fun h => absurd h hd, rfl⟩)
      · have h2' : (splitLine line).1 ≠ strOrg := by rw [← k2]; exact h2
        by_cases h3 : (splitLine line).1 = ascii "descr"
        · have h3' : (splitLine line).1 = strDescr := by rw [h3, k3]
          cases hy : d.descr with
          | none =>
            have he : autnumLines d (line :: rest) = autnumLines { d with descr := some (splitLine line).2 } rest := by
              simp only [autnumLines, if_neg h1', if_neg h2', if_pos h3', hy]
            rw [he]
            exact autnumLine_steps (ih _) (.inr ⟨fun h => absurd h h1, rfl⟩) (.inr ⟨h2, rfl⟩) (.inl ⟨h3, hy, rfl⟩)
          | some y =>
            have he : autnumLines d (line :: rest) = autnumLines d rest := by
              simp only [autnumLines, if_neg h1', if_neg h2', if_pos h3', hy]
            rw [he]
            refine autnumLine_steps (ih _) (.inr ⟨fun h => absurd h h1, rfl⟩) (.inr ⟨h2, rfl⟩) (.inr ⟨fun _ h => ?_, rfl⟩)
            rw [hy] at h
            cases h
        · have h3' : (splitLine line).1 ≠ strDescr := by rw [← k3]; exact h3
          have he : autnumLines d (line :: rest) = autnumLines d rest := by
            simp only [autnumLines, if_neg h1', if_neg h2', if_neg h3']
          rw [he]
          exact autnumLine_steps (ih _) (.inr ⟨fun h => absurd h h1, rfl⟩) (.inr ⟨h2, rfl⟩) (.inr ⟨fun h => absurd h h3, rfl⟩)

theorem describes_iff {block : List Bytes} {h name : Bytes} : Describes block h name ↔ ObjectOf "aut-num" block ∧
    ∃ d, AsDigits (block.map splitLine) d ∧ NoAttr (block.map splitLine) "org" ∧ FirstAttr (block.map splitLine) "descr" name ∧
      h = ascii "LIBLOC-" ++ d ++ ascii "-ORGHANDLE" := by
  unfold Describes
  constructor
  · rintro ⟨h, attrs, d, ha, h'⟩
    rw [attributes_iff] at ha
    subst ha
    exact ⟨h, d, h'⟩
  · rintro ⟨h, d, h'⟩
    exact ⟨h, _, d, attributes_iff.mpr rfl, h'⟩

theorem ownedBy_iff {block : List Bytes} {k : Nat} {h : Bytes} : OwnedBy block k h ↔ ObjectOf "aut-num" block ∧
    ∃ d, AsDigits (block.map splitLine) d ∧ Digits k d ∧
      ((∃ v, LastAttr (block.map splitLine) "org" v ∧ h = v.map upper) ∨ ∃ name, Describes block h name) := by
  unfold OwnedBy
  constructor
  · rintro ⟨h, attrs, d, ha, h'⟩
    rw [attributes_iff] at ha
    subst ha
    exact ⟨h, d, h'⟩
  · rintro ⟨h, d, h'⟩
    exact ⟨h, _, d, attributes_iff.mpr rfl, h'⟩

/-- What an object about an AS changes -/
theorem parseAutnum_cases {t : WhoisTables} {block : List Bytes} (ho : ObjectOf "aut-num" block) :
    (∃ t', parseAutnum t block = .ret t' ∧
      (∀ k h, (k, h) ∈ t'.tmpAutnums ↔ OwnedBy block k h ∨ ((∀ h', ¬ OwnedBy block k h') ∧ (k, h) ∈ t.tmpAutnums)) ∧
      (∀ h name, (h, name) ∈ t'.tmpOrgs ↔ (h, name) ∈ t.tmpOrgs ∨ ((∀ name', (h, name') ∉ t.tmpOrgs) ∧ Describes block h name)) ∧
      t'.networks = t.networks ∧ t'.autnums = t.autnums ∧ t'.rirdata = t.rirdata ∧
      ((t.tmpAutnums.map (·.1)).Nodup → (t'.tmpAutnums.map (·.1)).Nodup) ∧ ((t.tmpOrgs.map (·.1)).Nodup → (t'.tmpOrgs.map (·.1)).Nodup)) ∨
    (∃ x, parseAutnum t block = .exc x ∧ FaultyOther block) := by
  have hs := autnumLines_steps block ⟨none, none, none⟩
  unfold parseAutnum
  generalize autnumLines ⟨none, none, none⟩ block = d at hs
  -- nothing is stored
  have hnothing : (∀ k h, ¬ OwnedBy block k h) → (∀ h name, ¬ Describes block h name) →
      ∃ t', Call.ret t = .ret t' ∧
      (∀ k h, (k, h) ∈ t'.tmpAutnums ↔ OwnedBy block k h ∨ ((∀ h', ¬ OwnedBy block k h') ∧ (k, h) ∈ t.tmpAutnums)) ∧
      (∀ h name, (h, name) ∈ t'.tmpOrgs ↔ (h, name) ∈ t.tmpOrgs ∨ ((∀ name', (h, name') ∉ t.tmpOrgs) ∧ Describes block h name)) ∧
      t'.networks = t.networks ∧ t'.autnums = t.autnums ∧ t'.rirdata = t.rirdata ∧
      ((t.tmpAutnums.map (·.1)).Nodup → (t'.tmpAutnums.map (·.1)).Nodup) ∧ ((t.tmpOrgs.map (·.1)).Nodup → (t'.tmpOrgs.map (·.1)).Nodup) := by
    intro h1 h2
    refine ⟨t, rfl, fun k h => ?_, fun h name => ?_, rfl, rfl, rfl, id, id⟩
    · exact ⟨fun g => .inr ⟨fun h' => h1 k h', g⟩, fun g => g.elim (fun g => absurd g (h1 k h)) fun g => g.2⟩
    · exact ⟨.inl, fun g => g.elim id fun g => absurd g.2 (h2 h name)⟩
  rcases hs.asn with ⟨asn, a1, a2⟩ | ⟨a1, a2⟩
  · obtain ⟨k0, hk0⟩ := asDigits_number a1
    have hdig : ∀ k d', AsDigits (block.map splitLine) d' → Digits k d' → k = k0 := by
      intro k d' g1 g2
      obtain rfl := asDigits_unique a1 g1
      rw [digitsOf_iff.mpr g2] at hk0
      cases hk0
      rfl
    simp only [a2]
    rcases hs.org with ⟨v, o1, o2⟩ | ⟨o1, o2⟩
    · simp only [o2]
      have hnd : ∀ h name, ¬ Describes block h name := by
        intro h name hd
        obtain ⟨-, -, -, g, -⟩ := describes_iff.mp hd
        exact noAttr_not_last g o1
      have hown : ∀ k h, OwnedBy block k h ↔ k = k0 ∧ h = v.map upper := by
        intro k h
        rw [ownedBy_iff]
        constructor
        · rintro ⟨-, d', g1, g2, ⟨w, g3, rfl⟩ | ⟨name, g3⟩⟩
          · obtain rfl := lastAttr_unique o1 g3
            exact ⟨hdig k d' g1 g2, rfl⟩
          · exact absurd g3 (hnd _ _)
        · rintro ⟨rfl, rfl⟩
          exact ⟨ho, asn, a1, digitsOf_iff.mp hk0, .inl ⟨v, o1, rfl⟩⟩
      unfold storeAutnum
      simp only [hk0]
      by_cases hbig : 2 ^ 31 ≤ k0
      · rw [if_pos hbig]
        exact .inr ⟨_, rfl, .inl ⟨k0, _, (hown _ _).mpr ⟨rfl, rfl⟩, hbig⟩⟩
      · rw [if_neg hbig]
        refine .inl ⟨_, rfl, fun k h => ?_, fun h name => ?_, rfl, rfl, rfl, fun h => keys_putConst h, id⟩
        · rw [mem_putConst, hown]
          have : (∀ h', ¬ OwnedBy block k h') ↔ k ≠ k0 :=
            ⟨fun g hk => g _ ((hown _ _).mpr ⟨hk, rfl⟩), fun g h' hh => g ((hown _ _).mp hh).1⟩
          rw [this]
        · exact ⟨.inl, fun g => g.elim id fun g => absurd g.2 (hnd h name)⟩
    · simp only [o2]
      rcases hs.descr with ⟨d1, -⟩ | ⟨-, ⟨w, d1, d2⟩ | ⟨d1, d2⟩⟩
      · exact absurd rfl d1
      · simp only [d2]
        have hdes : ∀ h name, Describes block h name ↔ h = strLibloc ++ asn ++ strOrghandle ∧ name = w := by
          have e1 : ascii "LIBLOC-" = strLibloc := by decide
          have e2 : ascii "-ORGHANDLE" = strOrghandle := by decide
          intro h name
          rw [describes_iff, e1, e2]
          constructor
          · rintro ⟨-, d', g1, -, g2, rfl⟩
            obtain rfl := asDigits_unique a1 g1
            exact ⟨rfl, firstAttr_unique g2 d1⟩
          · rintro ⟨rfl, rfl⟩
            exact ⟨ho, asn, a1, o1, d1, rfl⟩
        have hown : ∀ k h, OwnedBy block k h ↔ k = k0 ∧ h = strLibloc ++ asn ++ strOrghandle := by
          intro k h
          rw [ownedBy_iff]
          constructor
          · rintro ⟨-, d', g1, g2, ⟨v, g3, -⟩ | ⟨name, g3⟩⟩
            · exact absurd g3 (noAttr_not_last o1)
            · exact ⟨hdig k d' g1 g2, ((hdes _ _).mp g3).1⟩
          · rintro ⟨rfl, rfl⟩
            exact ⟨ho, asn, a1, digitsOf_iff.mp hk0, .inr ⟨w, (hdes _ _).mpr ⟨rfl, rfl⟩⟩⟩
        unfold storeAutnum
        simp only [hk0]
        by_cases hbig : 2 ^ 31 ≤ k0
        · rw [if_pos hbig]
          exact .inr ⟨_, rfl, .inl ⟨k0, _, (hown _ _).mpr ⟨rfl, rfl⟩, hbig⟩⟩
        · rw [if_neg hbig]
          refine .inl ⟨_, rfl, fun k h => ?_, fun h name => ?_, rfl, rfl, rfl, fun h => keys_putConst h, fun h => keys_putNew h⟩
          · rw [mem_putConst, hown]
            have : (∀ h', ¬ OwnedBy block k h') ↔ k ≠ k0 :=
              ⟨fun g hk => g _ ((hown _ _).mpr ⟨hk, rfl⟩), fun g h' hh => g ((hown _ _).mp hh).1⟩
            rw [this]
          · rw [mem_putNew, hdes]
            constructor
            · rintro (g | ⟨g1, rfl, rfl⟩)
              · exact .inl g
              · exact .inr ⟨fun n' hn => g1 (List.mem_map.mpr ⟨_, hn, rfl⟩), rfl, rfl⟩
            · rintro (g | ⟨g1, rfl, rfl⟩)
              · exact .inl g
              · refine .inr ⟨fun hm => ?_, rfl, rfl⟩
                obtain ⟨⟨a, b⟩, hm, rfl⟩ := List.mem_map.mp hm
                exact g1 b hm
      · simp only [d2]
        have hnd : ∀ h name, ¬ Describes block h name := by
          intro h name hd
          obtain ⟨-, -, -, -, g, -⟩ := describes_iff.mp hd
          exact noAttr_not_first d1 g
        refine .inl (hnothing (fun k h g => ?_) hnd)
        obtain ⟨-, -, -, -, ⟨v, g, -⟩ | ⟨name, g⟩⟩ := ownedBy_iff.mp g
        · exact noAttr_not_last o1 g
        · exact hnd _ _ g
  · simp only [a2]
    refine .inl (hnothing (fun k h g => ?_) fun h name g => ?_)
    · obtain ⟨-, d', g, -⟩ := ownedBy_iff.mp g
      exact a1 d' g
    · obtain ⟨-, d', g, -⟩ := describes_iff.mp g
      exact a1 d' g

/-! ## Organisations -/

/-- What the lines of an object about an organisation collect -/
structure OrgSteps (d d' : Option Bytes × Option Bytes) (attrs : List (Bytes × Bytes)) : Prop where
  handle : (∃ v, LastAttr attrs "organisation" v ∧ d'.1 = some (v.map upper)) ∨ (NoAttr attrs "organisation" ∧ d'.1 = d.1)
  name : (∃ v, LastAttr attrs "org-name" v ∧ d'.2 = some v) ∨ (NoAttr attrs "org-name" ∧ d'.2 = d.2)

theorem orgLine_steps {d d1 d' : Option Bytes × Option Bytes} {x : Bytes × Bytes} {attrs : List (Bytes × Bytes)} (h : OrgSteps d1 d' attrs)
    (ho : (x.1 = ascii "organisation" ∧ d1.1 = some (x.2.map upper)) ∨ (x.1 ≠ ascii "organisation" ∧ d1.1 = d.1))
    (hn : (x.1 = ascii "org-name" ∧ d1.2 = some x.2) ∨ (x.1 ≠ ascii "org-name" ∧ d1.2 = d.2)) : OrgSteps d d' (x :: attrs) := by
  refine ⟨?_, ?_⟩
  · rcases h.handle with ⟨y, h1, h2⟩ | ⟨h1, h2⟩
    · exact .inl ⟨y, lastAttr_cons.mpr (.inl h1), h2⟩
    · rcases ho with ⟨g1, g2⟩ | ⟨g1, g2⟩
      · exact .inl ⟨x.2, lastAttr_cons.mpr (.inr ⟨h1, by rw [← g1]⟩), by rw [h2, g2]⟩
      · exact .inr ⟨noAttr_cons.mpr ⟨g1, h1⟩, by rw [h2, g2]⟩
  · rcases h.name with ⟨y, h1, h2⟩ | ⟨h1, h2⟩
    · exact .inl ⟨y, lastAttr_cons.mpr (.inl h1), h2⟩
    · rcases hn with ⟨g1, g2⟩ | ⟨g1, g2⟩
      · exact .inl ⟨x.2, lastAttr_cons.mpr (.inr ⟨h1, by rw [← g1]⟩), by rw [h2, g2]⟩
      · exact .inr ⟨noAttr_cons.mpr ⟨g1, h1⟩, by rw [h2, g2]⟩

theorem orgLines_steps (block : List Bytes) : ∀ d, OrgSteps d (orgLines d block) (block.map splitLine) := by
  obtain ⟨-, -, -, -, -, -, -, k1, k2⟩ := ascii_keys
  have d1 := keys_differ.2.2.2
  induction block with
  | nil => exact fun d => ⟨.inr ⟨fun x hx => (by cases hx), rfl⟩, .inr ⟨fun x hx => (by cases hx), rfl⟩⟩
  | cons line rest ih =>
    intro d
    rw [List.map_cons]
    by_cases h1 : (splitLine line).1 = ascii "organisation"
    · have h2 : (splitLine line).1 ≠ ascii "org-name" := by rw [h1]; exact d1
      have h1' : (splitLine line).1 = strOrganisation := by rw [h1, k1]
      have he : orgLines d (line :: rest) = orgLines (some (pyUpper (splitLine line).2), d.2) rest := by
        simp only [orgLines, if_pos h1']
      rw [he]
      exact orgLine_steps (ih _) (.inl ⟨h1, rfl⟩) (.inr ⟨h2, rfl⟩)
    · have h1' : (splitLine line).1 ≠ strOrganisation := by rw [← k1]; exact h1
      by_cases h2 : (splitLine line).1 = ascii "org-name"
      · have h2' : (splitLine line).1 = strOrgName := by rw [h2, k2]
        have he : orgLines d (line :: rest) = orgLines (d.1, some (splitLine line).2) rest := by
          simp only [orgLines, if_neg h1', if_pos h2']
        rw [he]
        exact orgLine_steps (ih _) (.inr ⟨h1, rfl⟩) (.inl ⟨h2, rfl⟩)
      · have h2' : (splitLine line).1 ≠ strOrgName := by rw [← k2]; exact h2
        have he : orgLines d (line :: rest) = orgLines d rest := by
          simp only [orgLines, if_neg h1', if_neg h2']
        rw [he]
        exact orgLine_steps (ih _) (.inr ⟨h1, rfl⟩) (.inr ⟨h2, rfl⟩)

theorem namesOrg_iff {block : List Bytes} {h name : Bytes} : NamesOrg block h name ↔ ObjectOf "organisation" block ∧
    ∃ v, LastAttr (block.map splitLine) "organisation" v ∧ h = v.map upper ∧ LastAttr (block.map splitLine) "org-name" name := by
  unfold NamesOrg
  constructor
  · rintro ⟨h, attrs, d, ha, h'⟩
    rw [attributes_iff] at ha
    subst ha
    exact ⟨h, d, h'⟩
  · rintro ⟨h, d, h'⟩
    exact ⟨h, _, d, attributes_iff.mpr rfl, h'⟩

/-- What an object about an organisation changes -/
theorem parseOrg_cases {t : WhoisTables} {block : List Bytes} (ho : ObjectOf "organisation" block) :
    (∃ t', parseOrg t block = .ret t' ∧
      (∀ h name, (h, name) ∈ t'.tmpOrgs ↔ NamesOrg block h name ∨ ((∀ name', ¬ NamesOrg block h name') ∧ (h, name) ∈ t.tmpOrgs)) ∧
      t'.networks = t.networks ∧ t'.autnums = t.autnums ∧ t'.rirdata = t.rirdata ∧ t'.tmpAutnums = t.tmpAutnums ∧
      ((t.tmpOrgs.map (·.1)).Nodup → (t'.tmpOrgs.map (·.1)).Nodup)) ∨
    (∃ x, parseOrg t block = .exc x ∧ FaultyOther block) := by
  have hs := orgLines_steps block (none, none)
  unfold parseOrg
  generalize orgLines (none, none) block = d at hs
  obtain ⟨d1, d2⟩ := d
  rcases hs.handle with ⟨v, h1, rfl⟩ | ⟨h1, -⟩
  · rcases hs.name with ⟨w, g1, rfl⟩ | ⟨g1, rfl⟩
    · have hn : ∀ h name, NamesOrg block h name ↔ h = v.map upper ∧ name = w := by
        intro h name
        rw [namesOrg_iff]
        constructor
        · rintro ⟨-, v', e1, rfl, e2⟩
          obtain rfl := lastAttr_unique h1 e1
          exact ⟨rfl, lastAttr_unique e2 g1⟩
        · rintro ⟨rfl, rfl⟩
          exact ⟨ho, v, h1, rfl, g1⟩
      refine .inl ⟨_, rfl, fun h name => ?_, rfl, rfl, rfl, rfl, fun h => keys_putConst h⟩
      rw [mem_putConst, hn]
      have : (∀ name', ¬ NamesOrg block h name') ↔ h ≠ v.map upper :=
        ⟨fun g hk => g _ ((hn _ _).mpr ⟨hk, rfl⟩), fun g h' hh => g ((hn _ _).mp hh).1⟩
      rw [this]
    · exact .inr ⟨_, rfl, .inr ⟨ho, _, attributes_iff.mpr rfl, g1⟩⟩
  · exact absurd h1 (objectOf_attr no58.2.2.2 (by decide) ho)

/-! ## Objects -/

/-- What an object changes -/
structure BlockEffect (e : WhoisEnv) (t t' : WhoisTables) (block : List Bytes) : Prop where
  rirdata : ∀ n c, (n, c) ∈ t'.rirdata ↔ Registers e block n c ∨ ((∀ c', ¬ Registers e block n c') ∧ (n, c) ∈ t.rirdata)
  tmpAutnums : ∀ k h, (k, h) ∈ t'.tmpAutnums ↔ OwnedBy block k h ∨ ((∀ h', ¬ OwnedBy block k h') ∧ (k, h) ∈ t.tmpAutnums)
  tmpOrgs : ∀ h name, (h, name) ∈ t'.tmpOrgs ↔ NamesOrg block h name ∨ ((∀ name', ¬ NamesOrg block h name') ∧
    ((h, name) ∈ t.tmpOrgs ∨ ((∀ name', (h, name') ∉ t.tmpOrgs) ∧ Describes block h name)))
  networks : t'.networks = t.networks
  autnums : t'.autnums = t.autnums
  keys : ((t.rirdata.map (·.1)).Nodup → (t'.rirdata.map (·.1)).Nodup) ∧ ((t.tmpAutnums.map (·.1)).Nodup → (t'.tmpAutnums.map (·.1)).Nodup) ∧
    ((t.tmpOrgs.map (·.1)).Nodup → (t'.tmpOrgs.map (·.1)).Nodup)

theorem key_same {α κ β : Type} {R : α → κ → β → Prop} {b : α} (h : ∀ k v, ¬ R b k v) {P : κ → β → Prop} (k : κ) (v : β) :
    P k v ↔ R b k v ∨ ((∀ v', ¬ R b k v') ∧ P k v) :=
  ⟨fun g => .inr ⟨h k, g⟩, fun g => g.elim (fun g => absurd g (h k v)) fun g => g.2⟩

theorem parseBlock_cases {e : WhoisEnv} {source : CStr} {t : WhoisTables} {block : List Bytes} (hne : block ≠ []) (hsep : RangesSeparate block) :
    (∃ t', parseBlock e source t block = .ret t' ∧ BlockEffect e t t' block) ∨
    (∃ x, parseBlock e source t block = .exc x ∧ (FaultyNetwork block ∨ FaultyOther block)) := by
  obtain ⟨-, k1, k2, -, k3, -, -, k4, -⟩ := ascii_keys
  obtain ⟨n1, n2, n3, n4⟩ := no58
  have reg : ¬ (ObjectOf "inetnum" block ∨ ObjectOf "inet6num" block) → ∀ n c, ¬ Registers e block n c := fun h n c g => h g.1
  have own : ¬ ObjectOf "aut-num" block → ∀ k h, ¬ OwnedBy block k h := fun h k h' g => h g.1
  have des : ¬ ObjectOf "aut-num" block → ∀ h name, ¬ Describes block h name := fun h k h' g => h g.1
  have nam : ¬ ObjectOf "organisation" block → ∀ h name, ¬ NamesOrg block h name := fun h k h' g => h g.1
  have orgs : ∀ {t : WhoisTables}, ¬ ObjectOf "aut-num" block → ¬ ObjectOf "organisation" block → ∀ h name, (h, name) ∈ t.tmpOrgs ↔
      NamesOrg block h name ∨ ((∀ name', ¬ NamesOrg block h name') ∧
        ((h, name) ∈ t.tmpOrgs ∨ ((∀ name', (h, name') ∉ t.tmpOrgs) ∧ Describes block h name))) := by
    intro t h1 h2 h name
    exact ⟨fun g => .inr ⟨nam h2 h, .inl g⟩, fun g => g.elim (fun g => absurd g (nam h2 _ _)) fun g => g.2.elim id fun g => absurd g.2 (des h1 _ _)⟩
  by_cases ha : ObjectOf "aut-num" block
  · have hi : ¬ (ObjectOf "inetnum" block ∨ ObjectOf "inet6num" block) := by
      rintro (h | h)
      · exact absurd (objectOf_same n3 n1 ha h) (by decide)
      · exact absurd (objectOf_same n3 n2 ha h) (by decide)
    have horg : ¬ ObjectOf "organisation" block := fun h => absurd (objectOf_same n3 n4 ha h) (by decide)
    have he : parseBlock e source t block = parseAutnum t block := by
      cases block with
      | nil => exact absurd rfl hne
      | cons line more =>
        have := objectOf_iff.mp ha
        rw [k3] at this
        simp only [parseBlock, this, if_true]
    rw [he]
    rcases parseAutnum_cases (t := t) ha with ⟨t', h1, h2, h3, h4, h5, h6, h7, h8⟩ | ⟨x, h1, h2⟩
    · refine .inl ⟨t', h1, ⟨fun n c => ?_, h2, fun h name => ?_, h4, h5, fun h => by rw [h6]; exact h, h7, h8⟩⟩
      · rw [h6]
        exact key_same (P := fun n c => (n, c) ∈ t.rirdata) (reg hi) n c
      · rw [h3]
        exact key_same (P := fun h name => (h, name) ∈ t.tmpOrgs ∨ ((∀ name', (h, name') ∉ t.tmpOrgs) ∧ Describes block h name)) (nam horg) h name
    · exact .inr ⟨x, h1, .inr h2⟩
  · by_cases hi : ObjectOf "inetnum" block ∨ ObjectOf "inet6num" block
    · have horg : ¬ ObjectOf "organisation" block := by
        intro h
        rcases hi with hi | hi
        · exact absurd (objectOf_same n1 n4 hi h) (by decide)
        · exact absurd (objectOf_same n2 n4 hi h) (by decide)
      have he : parseBlock e source t block = parseInetnum e source t block := by
        cases block with
        | nil => exact absurd rfl hne
        | cons line more =>
          rw [objectOf_iff, k3, Bool.not_eq_true] at ha
          rw [objectOf_iff, objectOf_iff, k1, k2] at hi
          have hi' : ((strInet6num ++ [58]).isPrefixOf line || (strInetnum ++ [58]).isPrefixOf line) = true := by
            rw [Bool.or_eq_true]
            exact hi.symm
          simp only [parseBlock, ha, hi', if_true, Bool.false_eq_true, if_false]
      rw [he]
      rcases parseInetnum_cases (e := e) (source := source) (t := t) hi hsep with ⟨t', h1, h2, h3, h4, h5, h6, h7⟩ | ⟨x, h1, h2⟩
      · refine .inl ⟨t', h1, ⟨h2, fun k h => ?_, fun h name => ?_, h3, h4, h7, fun h => by rw [h5]; exact h, fun h => by rw [h6]; exact h⟩⟩
        · rw [h5]
          exact key_same (P := fun n c => (n, c) ∈ t.tmpAutnums) (own ha) k h
        · rw [h6]
          exact orgs ha horg h name
      · exact .inr ⟨x, h1, .inl h2⟩
    · by_cases ho : ObjectOf "organisation" block
      · have he : parseBlock e source t block = parseOrg t block := by
          cases block with
          | nil => exact absurd rfl hne
          | cons line more =>
            rw [objectOf_iff, k3, Bool.not_eq_true] at ha
            rw [objectOf_iff, objectOf_iff, k1, k2] at hi
            rw [objectOf_iff, k4] at ho
            have hi' : ((strInet6num ++ [58]).isPrefixOf line || (strInetnum ++ [58]).isPrefixOf line) = false := by
              rw [← Bool.not_eq_true, Bool.or_eq_true]
              exact fun h => hi h.symm
            simp only [parseBlock, ha, hi', ho, if_true, Bool.false_eq_true, if_false]
        rw [he]
        rcases parseOrg_cases (t := t) ho with ⟨t', h1, h2, h3, h4, h5, h6, h7⟩ | ⟨x, h1, h2⟩
        · refine .inl ⟨t', h1, ⟨fun n c => ?_, fun k h => ?_, fun h name => ?_, h3, h4, fun h => by rw [h5]; exact h, fun h => by rw [h6]; exact h, h7⟩⟩
          · rw [h5]
            exact key_same (P := fun n c => (n, c) ∈ t.rirdata) (reg hi) n c
          · rw [h6]
            exact key_same (P := fun n c => (n, c) ∈ t.tmpAutnums) (own ha) k h
          · rw [h2]
            have : ((h, name) ∈ t.tmpOrgs ∨ ((∀ name', (h, name') ∉ t.tmpOrgs) ∧ Describes block h name)) ↔ (h, name) ∈ t.tmpOrgs :=
              ⟨fun g => g.elim id fun g => absurd g.2 (des ha _ _), .inl⟩
            rw [this]
        · exact .inr ⟨x, h1, .inr h2⟩
      · have he : parseBlock e source t block = .ret t := by
          cases block with
          | nil => exact absurd rfl hne
          | cons line more =>
            rw [objectOf_iff, k3, Bool.not_eq_true] at ha
            rw [objectOf_iff, objectOf_iff, k1, k2] at hi
            rw [objectOf_iff, k4, Bool.not_eq_true] at ho
            have hi' : ((strInet6num ++ [58]).isPrefixOf line || (strInetnum ++ [58]).isPrefixOf line) = false := by
              rw [← Bool.not_eq_true, Bool.or_eq_true]
              exact fun h => hi h.symm
            simp only [parseBlock, ha, hi', ho, Bool.false_eq_true, if_false]
        exact .inl ⟨t, he, ⟨key_same (P := fun n c => (n, c) ∈ t.rirdata) (reg hi), key_same (P := fun n c => (n, c) ∈ t.tmpAutnums) (own ha),
          orgs ha ho, rfl, rfl, id, id, id⟩⟩

end Loc
