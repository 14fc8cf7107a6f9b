import Verif.Lemmas.DumpRead
/-
Override files.
-/
namespace Loc
open Spec Loc.Props

abbrev Blk := Option Bytes × BlockData

theorem firstBlock_cons {P : Blk → Prop} {b x : Blk} {bs : List Blk} : FirstBlock P (b :: bs) x ↔ (P b ∧ x = b) ∨ (¬ P b ∧ FirstBlock P bs x) := by
  constructor
  · rintro ⟨pre, post, h1, h2, h3⟩
    cases pre with
    | nil => cases h1; exact .inl ⟨h2, rfl⟩
    | cons y pre =>
      cases h1
      exact .inr ⟨h3 _ List.mem_cons_self, pre, post, rfl, h2, fun z hz => h3 z (List.mem_cons_of_mem _ hz)⟩
  · rintro (⟨h1, rfl⟩ | ⟨h1, pre, post, rfl, h2, h3⟩)
    · exact ⟨[], bs, rfl, h1, by simp⟩
    · refine ⟨b :: pre, post, rfl, h2, fun z hz => ?_⟩
      rcases List.mem_cons.mp hz with rfl | hz
      · exact h1
      · exact h3 z hz

theorem firstBlock_append {P : Blk → Prop} {x : Blk} : ∀ {as bs : List Blk}, FirstBlock P (as ++ bs) x ↔
    FirstBlock P as x ∨ ((∀ a ∈ as, ¬ P a) ∧ FirstBlock P bs x)
  | [], bs => by
    constructor
    · intro h; exact .inr ⟨by simp, h⟩
    · rintro (⟨pre, post, h, -⟩ | ⟨-, h⟩)
      · simp at h
      · exact h
  | a :: as, bs => by
    rw [List.cons_append, firstBlock_cons, firstBlock_cons, firstBlock_append]
    constructor
    · rintro (h | ⟨h1, h2 | ⟨h2, h3⟩⟩)
      · exact .inl (.inl h)
      · exact .inl (.inr ⟨h1, h2⟩)
      · refine .inr ⟨fun y hy => ?_, h3⟩
        rcases List.mem_cons.mp hy with rfl | hy
        · exact h1
        · exact h2 y hy
    · rintro ((h | ⟨h1, h2⟩) | ⟨h1, h2⟩)
      · exact .inl h
      · exact .inr ⟨h1, .inl h2⟩
      · exact .inr ⟨h1 a List.mem_cons_self, .inr ⟨fun y hy => h1 y (List.mem_cons_of_mem _ hy), h2⟩⟩

theorem textOf_iff {d : BlockData} {key : Bytes} {s : Bytes} : textOf d key = some s ↔ dictGet d key = some (.text s) := by
  unfold textOf
  split
  · rename_i h; rw [h]; simp
  · rename_i h
    constructor
    · intro hc; cases hc
    · intro hc; exact absurd hc (h s)

theorem keys_ascii : keyOf strNet = ascii "net" ∧ keyOf strCountry = ascii "country" ∧ keyOf strAutNum = ascii "aut-num" ∧
    keyOf strProxy = ascii "is-anonymous-proxy" ∧ keyOf strSatellite = ascii "is-satellite-provider" ∧ keyOf strAnycast = ascii "is-anycast" ∧
    keyOf strDropKey = ascii "drop" ∧ keyOf strName = ascii "name" := by decide

theorem parseBool_says (d : BlockData) (key : String) {k : Bytes} (hk : k = ascii key) (v : Option Bool) :
    SaysBool d key v ↔ v = parseBool d k := by
  subst hk
  unfold SaysBool parseBool
  rw [valueAt_eq]
  have hl : ∀ s : Bytes, s.map lower = pyLower s := fun _ => rfl
  have hc : ascii "yes" = strYes ∧ ascii "1" = [49] ∧ ascii "no" = strNo ∧ ascii "0" = [48] := by decide
  rw [hc.1, hc.2.1, hc.2.2.1, hc.2.2.2]
  cases hd : dictGet d (ascii key) with
  | none =>
    simp only [reduceCtorEq, false_and, exists_false, iff_false]
    rcases v with _ | b
    · simp
    · cases b <;> simp
  | some x =>
    cases x with
    | texts l =>
      simp only [Option.some.injEq, reduceCtorEq, false_and, exists_false, iff_false]
      rcases v with _ | b
      · simp
      · cases b <;> simp
    | text val =>
      simp only [Option.some.injEq, BlockValue.text.injEq, exists_eq_left', hl]
      have hcons : ∀ (a b c : Bytes), a ∈ [b, c] ↔ a = b ∨ a = c := by simp
      rw [hcons, hcons]
      by_cases h1 : pyLower val = strYes ∨ pyLower val = [49]
      · have h2 : ¬ (pyLower val = strNo ∨ pyLower val = [48]) := by
          rcases h1 with h | h <;> rw [h] <;> decide
        rw [if_pos h1]
        simp only [h1, h2, iff_true, iff_false]
        constructor
        · exact fun h => h.1
        · rintro rfl; simp
      · rw [if_neg h1]
        by_cases h2 : pyLower val = strNo ∨ pyLower val = [48]
        · rw [if_pos h2]
          simp only [h1, h2, iff_true, iff_false]
          constructor
          · exact fun h => h.2
          · rintro rfl; simp
        · rw [if_neg h2]
          simp only [h1, h2, iff_false]
          rcases v with _ | b
          · simp
          · cases b <;> simp

theorem saysMarks_iff (d : BlockData) (m : Marks) : SaysMarks d m ↔ m = marksOf d := by
  obtain ⟨-, k2, -, k4, k5, k6, k7, -⟩ := keys_ascii
  unfold SaysMarks
  rw [parseBool_says d _ k4, parseBool_says d _ k5, parseBool_says d _ k6, parseBool_says d _ k7]
  have hco : (∀ s, m.country = some s ↔ valueAt d "country" = some (.text s)) ↔ m.country = textOf d (keyOf strCountry) := by
    rw [k2, valueAt_eq]
    constructor
    · intro h
      refine Option.ext fun s => ?_
      rw [h s]
      exact textOf_iff.symm
    · intro h s
      rw [h]
      exact textOf_iff
  rw [hco]
  unfold marksOf
  cases m
  simp

theorem aboutNet_iff (n : Network) (b : Blk) : AboutNet n b ↔ b.1 = some (keyOf strNet) ∧ (textOf b.2 (keyOf strNet)).bind ipNetwork = some n := by
  unfold AboutNet
  rw [keys_ascii.1]
  refine and_congr_right fun _ => ?_
  rw [valueAt_eq]
  constructor
  · rintro ⟨s, h1, h2⟩
    rw [textOf_iff.mpr h1]
    exact ipNetwork_iff.mpr h2
  · intro h
    obtain ⟨s, h1, h2⟩ := Option.bind_eq_some_iff.mp h
    exact ⟨s, textOf_iff.mp h1, ipNetwork_iff.mp h2⟩

theorem aboutAs_iff (k : Nat) (b : Blk) : AboutAs k b ↔ b.1 = some (keyOf strAutNum) ∧
    ∃ s, textOf b.2 (keyOf strAutNum) = some s ∧ s.take 2 = [65, 83] ∧ digitsOf (s.drop 2) = some k := by
  unfold AboutAs
  rw [keys_ascii.2.2.1]
  refine and_congr_right fun _ => ?_
  rw [valueAt_eq]
  have hAS : ascii "AS" = [65, 83] := by decide
  rw [hAS]
  constructor
  · rintro ⟨s, h1, h2⟩
    exact ⟨_, textOf_iff.mpr h1, rfl, digitsOf_iff.mpr h2⟩
  · rintro ⟨s, h1, h2, h3⟩
    refine ⟨s.drop 2, ?_, digitsOf_iff.mp h3⟩
    rw [← h2, List.take_append_drop]
    exact textOf_iff.mp h1

/-- The table after a block of type "net" -/
theorem overrideNet_mem (t : OverrideTables) (b : Blk) (hb : b.1 = some (keyOf strNet)) (n : Network) (m : Marks) :
    ((n, m) ∈ (overrideNet t b.2).networks ↔ (n, m) ∈ t.networks ∨
      (n ∉ t.networks.map (·.1) ∧ netPrefix n ≠ 0 ∧ AboutNet n b ∧ m = marksOf b.2)) ∧
    (overrideNet t b.2).autnums = t.autnums := by
  have ha : ∀ x, AboutNet x b ↔ (textOf b.2 (keyOf strNet)).bind ipNetwork = some x := by
    intro x
    rw [aboutNet_iff]
    exact and_iff_right hb
  rw [ha]
  unfold overrideNet
  cases h : (textOf b.2 (keyOf strNet)).bind ipNetwork with
  | none => simp
  | some x =>
    simp only [Option.some.injEq]
    by_cases hp : netPrefix x = 0
    · rw [if_pos hp]
      refine ⟨⟨.inl, ?_⟩, rfl⟩
      rintro (h | ⟨-, h1, rfl, -⟩)
      · exact h
      · exact absurd hp h1
    · rw [if_neg hp]
      by_cases hany : (t.networks.any fun y => decide (y.1 = x)) = true
      · rw [if_pos hany]
        refine ⟨⟨.inl, ?_⟩, rfl⟩
        rintro (h | ⟨h1, -, rfl, -⟩)
        · exact h
        · obtain ⟨y, hy, he⟩ := List.any_eq_true.mp hany
          exact absurd (List.mem_map.mpr ⟨y, hy, of_decide_eq_true he⟩) h1
      · rw [if_neg hany]
        refine ⟨?_, rfl⟩
        simp only [List.mem_append, List.mem_singleton, Prod.mk.injEq]
        refine or_congr_right ?_
        constructor
        · rintro ⟨rfl, rfl⟩
          refine ⟨?_, hp, rfl, rfl⟩
          intro hm
          obtain ⟨y, hy, he⟩ := List.mem_map.mp hm
          exact hany (List.any_eq_true.mpr ⟨y, hy, decide_eq_true he⟩)
        · rintro ⟨-, -, rfl, rfl⟩
          exact ⟨rfl, rfl⟩

theorem overrideAs_mem {t t' : OverrideTables} {b : Blk} (hb : b.1 = some (keyOf strAutNum)) (h : overrideAs t b.2 = .ret t') :
    (∀ k name m, (k, name, m) ∈ t'.autnums ↔ (k, name, m) ∈ t.autnums ∨
      (k ∉ t.autnums.map (·.1) ∧ AboutAs k b ∧ name = textOf b.2 (keyOf strName) ∧ m = marksOf b.2)) ∧
    t'.networks = t.networks ∧ ∀ k, AboutAs k b → k < 2 ^ 63 := by
  have ha : ∀ x, AboutAs x b ↔ ∃ s, textOf b.2 (keyOf strAutNum) = some s ∧ s.take 2 = [65, 83] ∧ digitsOf (s.drop 2) = some x := by
    intro x
    rw [aboutAs_iff]
    exact and_iff_right hb
  simp only [ha]
  unfold overrideAs at h
  cases hs : textOf b.2 (keyOf strAutNum) with
  | none =>
    rw [hs] at h
    cases h
    simp
  | some s =>
    rw [hs] at h
    simp only [Option.some.injEq, exists_eq_left'] at h ⊢
    by_cases h2 : s.take 2 = [65, 83]
    · rw [if_neg (by simpa using h2)] at h
      cases hd : digitsOf (s.drop 2) with
      | none => rw [hd] at h; cases h
      | some k0 =>
        rw [hd] at h
        simp only at h
        by_cases hbig : 2 ^ 63 ≤ k0
        · rw [if_pos hbig] at h; cases h
        · rw [if_neg hbig] at h
          have hlt : ∀ k, s.take 2 = [65, 83] ∧ some k0 = some k → k < 2 ^ 63 := by
            rintro k ⟨-, he⟩
            cases he
            omega
          by_cases hany : (t.autnums.any fun y => decide (y.1 = k0)) = true
          · rw [if_pos hany] at h
            cases h
            refine ⟨fun k name m => ⟨.inl, ?_⟩, rfl, hlt⟩
            rintro (h | ⟨h1, ⟨-, he⟩, -⟩)
            · exact h
            · cases he
              obtain ⟨y, hy, he⟩ := List.any_eq_true.mp hany
              exact absurd (List.mem_map.mpr ⟨y, hy, of_decide_eq_true he⟩) h1
          · rw [if_neg hany] at h
            cases h
            refine ⟨fun k name m => ?_, rfl, hlt⟩
            simp only [List.mem_append, List.mem_singleton, Prod.mk.injEq, Option.some.injEq]
            refine or_congr_right ?_
            constructor
            · rintro ⟨rfl, rfl, rfl⟩
              refine ⟨?_, ⟨h2, rfl⟩, rfl, rfl⟩
              intro hm
              obtain ⟨y, hy, he⟩ := List.mem_map.mp hm
              exact hany (List.any_eq_true.mpr ⟨y, hy, decide_eq_true he⟩)
            · rintro ⟨-, ⟨-, rfl⟩, rfl, rfl⟩
              exact ⟨rfl, rfl, rfl⟩
    · rw [if_pos (by simpa using h2)] at h
      cases h
      refine ⟨fun k name m => ⟨.inl, ?_⟩, rfl, fun k hk => absurd hk.1 h2⟩
      rintro (h | ⟨-, hk, -⟩)
      · exact h
      · exact absurd hk.1 h2

theorem types_differ : (some (keyOf strAutNum) : Option Bytes) ≠ some (keyOf strNet) := by decide

/-- The tables after some blocks -/
theorem overrideBlocks_mem : ∀ {bs : List Blk} {t t' : OverrideTables}, overrideBlocks t bs = .ret t' →
    (∀ n m, (n, m) ∈ t'.networks ↔ (n, m) ∈ t.networks ∨
      (n ∉ t.networks.map (·.1) ∧ netPrefix n ≠ 0 ∧ ∃ b, FirstBlock (AboutNet n) bs b ∧ m = marksOf b.2)) ∧
    (∀ k name m, (k, name, m) ∈ t'.autnums ↔ (k, name, m) ∈ t.autnums ∨
      (k ∉ t.autnums.map (·.1) ∧ ∃ b, FirstBlock (AboutAs k) bs b ∧ name = textOf b.2 (keyOf strName) ∧ m = marksOf b.2)) ∧
    ∀ b ∈ bs, ∀ k, AboutAs k b → k < 2 ^ 63
  | [], t, t', h => by
    cases h
    have hf : ∀ (P : Blk → Prop) b, ¬ FirstBlock P [] b := by
      rintro P b ⟨pre, post, h, -⟩
      simp at h
    simp [hf]
  | b :: bs, t, t', h => by
    obtain ⟨type, d⟩ := b
    rw [overrideBlocks] at h
    have hnetno : type ≠ some (keyOf strNet) → ∀ n, ¬ AboutNet n (type, d) := fun hne n ha => hne ((aboutNet_iff n _).mp ha).1
    have hasno : type ≠ some (keyOf strAutNum) → ∀ k, ¬ AboutAs k (type, d) := fun hne k ha => hne ((aboutAs_iff k _).mp ha).1
    by_cases hn : type = some (keyOf strNet)
    · rw [if_pos hn] at h
      obtain ⟨h1, h2, h3⟩ := overrideBlocks_mem h
      have hm := overrideNet_mem t (type, d) hn
      have hau : (overrideNet t d).autnums = t.autnums := (hm ⟨.inet, Vector.replicate 16 0, Vector.replicate 16 0, 0, 0, 0, 0, 0⟩ (marksOf d)).2
      have hna : ∀ k, ¬ AboutAs k (type, d) := hasno (fun he => types_differ (he.symm.trans hn))
      refine ⟨fun n m => ?_, fun k name m => ?_, ?_⟩
      · rw [h1, (hm n m).1]
        have hkeys : n ∈ (overrideNet t d).networks.map (·.1) ↔ n ∈ t.networks.map (·.1) ∨
            (n ∉ t.networks.map (·.1) ∧ netPrefix n ≠ 0 ∧ AboutNet n (type, d)) := by
          simp only [List.mem_map, Prod.exists, exists_and_right, exists_eq_right]
          constructor
          · rintro ⟨m', h'⟩
            rcases (hm n m').1.mp h' with h' | ⟨e1, e2, e3, -⟩
            · exact .inl ⟨m', h'⟩
            · exact .inr ⟨by simpa using e1, e2, e3⟩
          · rintro (⟨m', h'⟩ | ⟨e1, e2, e3⟩)
            · exact ⟨m', (hm n m').1.mpr (.inl h')⟩
            · exact ⟨_, (hm n _).1.mpr (.inr ⟨by simpa using e1, e2, e3, rfl⟩)⟩
        rw [hkeys]
        simp only [firstBlock_cons]
        constructor
        · rintro ((h | ⟨e1, e2, e3, e4⟩) | ⟨e1, e2, x, e3, e4⟩)
          · exact .inl h
          · exact .inr ⟨e1, e2, _, .inl ⟨e3, rfl⟩, e4⟩
          · refine .inr ⟨fun hc => e1 (.inl hc), e2, x, .inr ⟨fun hc => ?_, e3⟩, e4⟩
            exact e1 ((Classical.em _).elim .inl fun hnm => .inr ⟨hnm, e2, hc⟩)
        · rintro (h | ⟨e1, e2, x, (⟨e3, rfl⟩ | ⟨e3, e4⟩), e5⟩)
          · exact .inl (.inl h)
          · exact .inl (.inr ⟨e1, e2, e3, e5⟩)
          · refine .inr ⟨?_, e2, x, e4, e5⟩
            rintro (hc | ⟨-, -, hc⟩)
            · exact e1 hc
            · exact e3 hc
      · rw [h2, hau]
        refine or_congr_right (and_congr_right fun _ => exists_congr fun x => ?_)
        rw [firstBlock_cons]
        simp [hna]
      · intro x hx k hk
        rcases List.mem_cons.mp hx with rfl | hx
        · exact absurd hk (hna k)
        · exact h3 x hx k hk
    · rw [if_neg hn] at h
      have hnn := hnetno hn
      by_cases ha : type = some (keyOf strAutNum)
      · rw [if_pos ha] at h
        cases ho : overrideAs t d with
        | exc x => rw [ho] at h; cases h
        | ret t1 =>
          rw [ho] at h
          obtain ⟨h1, h2, h3⟩ := overrideBlocks_mem h
          obtain ⟨m1, m2, m3⟩ := overrideAs_mem (b := (type, d)) ha ho
          refine ⟨fun n m => ?_, fun k name m => ?_, ?_⟩
          · rw [h1, m2]
            refine or_congr_right (and_congr_right fun _ => and_congr_right fun _ => exists_congr fun x => ?_)
            rw [firstBlock_cons]
            simp [hnn]
          · rw [h2, m1]
            have hkeys : k ∈ t1.autnums.map (·.1) ↔ k ∈ t.autnums.map (·.1) ∨ (k ∉ t.autnums.map (·.1) ∧ AboutAs k (type, d)) := by
              simp only [List.mem_map, Prod.exists, exists_and_right, exists_eq_right]
              constructor
              · rintro ⟨name', m', h'⟩
                rcases (m1 k name' m').mp h' with h' | ⟨e1, e2, -⟩
                · exact .inl ⟨name', m', h'⟩
                · exact .inr ⟨by simpa using e1, e2⟩
              · rintro (⟨name', m', h'⟩ | ⟨e1, e2⟩)
                · exact ⟨name', m', (m1 k name' m').mpr (.inl h')⟩
                · exact ⟨_, _, (m1 k _ _).mpr (.inr ⟨by simpa using e1, e2, rfl, rfl⟩)⟩
            rw [hkeys]
            simp only [firstBlock_cons]
            constructor
            · rintro ((h | ⟨e1, e2, e3⟩) | ⟨e1, x, e2, e3⟩)
              · exact .inl h
              · exact .inr ⟨e1, _, .inl ⟨e2, rfl⟩, e3⟩
              · refine .inr ⟨fun hc => e1 (.inl hc), x, .inr ⟨fun hc => ?_, e2⟩, e3⟩
                exact e1 ((Classical.em _).elim .inl fun hnm => .inr ⟨hnm, hc⟩)
            · rintro (h | ⟨e1, x, (⟨e2, rfl⟩ | ⟨e2, e3⟩), e4⟩)
              · exact .inl (.inl h)
              · exact .inl (.inr ⟨e1, e2, e4⟩)
              · refine .inr ⟨?_, x, e3, e4⟩
                rintro (hc | ⟨-, hc⟩)
                · exact e1 hc
                · exact e2 hc
          · intro x hx k hk
            rcases List.mem_cons.mp hx with rfl | hx
            · exact m3 k hk
            · exact h3 x hx k hk
      · rw [if_neg ha] at h
        obtain ⟨h1, h2, h3⟩ := overrideBlocks_mem h
        have hna := hasno ha
        refine ⟨fun n m => ?_, fun k name m => ?_, ?_⟩
        · rw [h1]
          refine or_congr_right (and_congr_right fun _ => and_congr_right fun _ => exists_congr fun x => ?_)
          rw [firstBlock_cons]
          simp [hnn]
        · rw [h2]
          refine or_congr_right (and_congr_right fun _ => exists_congr fun x => ?_)
          rw [firstBlock_cons]
          simp [hna]
        · intro x hx k hk
          rcases List.mem_cons.mp hx with rfl | hx
          · exact absurd hk (hna k)
          · exact h3 x hx k hk

/-! ## What a block means -/

theorem not_keyLine {line : Bytes} (h : 58 ∉ line) (k v : Bytes) : ¬ KeyLine line k v := by
  rintro ⟨-, -, w1, w2, rfl, -⟩
  exact h (List.mem_append_right _ List.mem_cons_self)

theorem allValues_unique {key : Bytes} {ts l : List Bytes} (h : AllValues key ts l) : ∀ {l' : List Bytes}, AllValues key ts l' → l = l' := by
  induction h with
  | nil => intro l' h'; cases h'; rfl
  | hit hk _ ih =>
    intro l' h'
    cases h' with
    | hit hk' hr' => rw [ih hr', (keyLine_inj hk hk').2]
    | miss hm _ => exact absurd hk (hm _)
  | miss hm _ ih =>
    intro l' h'
    cases h' with
    | hit hk' hr' => exact absurd hk' (hm _)
    | miss _ hr' => exact ih hr'

theorem lastValue_unique {ts : List Bytes} {key v v' : Bytes} (h : LastValue ts key v) (h' : LastValue ts key v') : v = v' := by
  obtain ⟨pre, line, post, rfl, h1, h2⟩ := h
  obtain ⟨pre', line', post', e, h1', h2'⟩ := h'
  rcases List.append_eq_append_iff.mp e with ⟨as, rfl, e2⟩ | ⟨bs, rfl, e2⟩
  · cases as with
    | nil =>
      have := (List.cons.inj e2).1
      subst this
      exact (keyLine_inj h1 h1').2
    | cons a as =>
      have := (List.cons.inj e2).2
      exact absurd h1' (h2 line' (by rw [this]; exact List.mem_append_right _ List.mem_cons_self) v')
  · cases bs with
    | nil =>
      have := (List.cons.inj e2).1
      subst this
      exact (keyLine_inj h1 h1').2
    | cons a as =>
      have := (List.cons.inj e2).2
      exact absurd h1 (h2' line (by rw [this]; exact List.mem_append_right _ List.mem_cons_self) v)

/-- The texts under a key -/
def textsAt (d : BlockData) (key : Bytes) : List Bytes :=
  match dictGet d key with
  | some (.texts l) => l
  | _ => []

theorem appendTo_texts (d : BlockData) (key v : Bytes) : appendTo (dictGet d key) v = .texts (textsAt d key ++ [v]) := by
  unfold appendTo textsAt
  cases dictGet d key with
  | none => rfl
  | some x => cases x <;> rfl

theorem readBlock_list {type key : Bytes} (hl : ListKey type key) : ∀ {block : List Bytes} {d d' : BlockData} {t' : Option Bytes},
    readBlock (some type) d block = .ret (t', d') → ∃ l, AllValues key block l ∧
      dictGet d' key = if l = [] then dictGet d key else some (.texts (textsAt d key ++ l))
  | [], d, d', t', h => by
    cases h
    exact ⟨[], .nil, rfl⟩
  | line :: rest, d, d', t', h => by
    rw [readBlock] at h
    cases hs : splitKey line with
    | exc x => rw [hs] at h; cases h
    | ret kv =>
      obtain ⟨k, v⟩ := kv
      rw [hs] at h
      obtain ⟨l, h1, h2⟩ := readBlock_list hl h
      have hk := splitKey_keyLine hs
      by_cases he : k = key
      · subst he
        refine ⟨pyStrip v :: l, .hit hk h1, ?_⟩
        have hg : dictGet (storeLine type d k (pyStrip v)) k = some (.texts (textsAt d k ++ [pyStrip v])) := by
          unfold storeLine
          have hl' := hl
          unfold ListKey at hl'
          rw [if_pos hl', dictGet_set, if_pos rfl, appendTo_texts]
        have ht : textsAt (storeLine type d k (pyStrip v)) k = textsAt d k ++ [pyStrip v] := by
          unfold textsAt
          rw [hg]
          rfl
        rw [h2, hg, ht, if_neg (List.cons_ne_nil _ _)]
        by_cases hln : l = []
        · rw [if_pos hln, hln]
        · rw [if_neg hln, List.append_assoc]; rfl
      · refine ⟨l, .miss (fun v' hv' => he (keyLine_inj hk hv').1) h1, ?_⟩
        have hg : dictGet (storeLine type d k (pyStrip v)) key = dictGet d key := by
          unfold storeLine
          rw [if_neg (fun hc => he (hc.2.trans hl.2.symm)), dictGet_set, if_neg he]
        have ht : textsAt (storeLine type d k (pyStrip v)) key = textsAt d key := by
          unfold textsAt
          rw [hg]
        rw [h2, hg, ht]

theorem geofeed_ascii : ascii "geofeed" = [103, 101, 111, 102, 101, 101, 100] ∧ ascii "network" = [110, 101, 116, 119, 111, 114, 107] := by
  decide

/-- The first line gives the type and is then handled like the others. -/
theorem readBlock_start {line : Bytes} {rest : List Bytes} {k v : Bytes} (h : splitKey line = .ret (k, v)) :
    readBlock none [] (line :: rest) = readBlock (some k) [] (line :: rest) := by
  rw [readBlock, readBlock, h]

theorem readBlock_means {ts : List Bytes} (hne : ts ≠ []) {b : Blk} (h : readBlock none [] ts = .ret b) : MeansBlock ts b := by
  obtain ⟨t', d⟩ := b
  cases ts with
  | nil => exact absurd rfl hne
  | cons line rest =>
    cases hs : splitKey line with
    | exc x => rw [readBlock, hs] at h; cases h
    | ret kv =>
      obtain ⟨k, v⟩ := kv
      rw [readBlock_start hs] at h
      obtain ⟨h1, h2, h3⟩ := readBlock_values h
      subst h1
      refine ⟨h2, ⟨line, rest, k, _, rfl, splitKey_keyLine hs, rfl⟩, ?_, ?_⟩
      · intro key hg w
        have hg' : ¬ ListKey k key := by
          rintro ⟨rfl, rfl⟩
          exact hg ⟨by rw [geofeed_ascii.1], by rw [geofeed_ascii.2]⟩
        rw [← dictGet_lookup]
        rcases h3 key hg' with ⟨pre, l, post, value, e0, e1, e2, e3⟩ | ⟨e1, e2⟩
        · rw [e3]
          constructor
          · intro hw
            cases hw
            exact ⟨value, rfl, pre, l, post, e0, e1, e2⟩
          · rintro ⟨s, rfl, hs'⟩
            rw [lastValue_unique hs' ⟨pre, l, post, e0, e1, e2⟩]
        · rw [e2]
          constructor
          · intro hw; cases hw
          · rintro ⟨s, -, pre, l, post, e0, e3, -⟩
            exact absurd e3 (e1 l (by rw [e0]; exact List.mem_append_right _ List.mem_cons_self) s)
      · intro hgeo
        have hgeo' : k = ascii "geofeed" := Option.some.inj hgeo
        obtain ⟨l, e1, e2⟩ := readBlock_list (key := ascii "network") ⟨hgeo'.trans geofeed_ascii.1, geofeed_ascii.2⟩ h
        exact ⟨l, e1, by rw [← dictGet_lookup, e2]; rfl⟩

/-- Two readings of a block do not differ. -/
def SameBlk (a b : Blk) : Prop := a.1 = b.1 ∧ ∀ key, a.2.lookup key = b.2.lookup key

theorem means_unique {ts : List Bytes} {a b : Blk} (ha : MeansBlock ts a) (hb : MeansBlock ts b) : SameBlk a b := by
  obtain ⟨-, ⟨l, r, t, v, e1, e2, e3⟩, a3, a4⟩ := ha
  obtain ⟨-, ⟨l', r', t', v', e1', e2', e3'⟩, b3, b4⟩ := hb
  rw [e1] at e1'
  have hl := (List.cons.inj e1').1
  subst hl
  have ht := (keyLine_inj e2 e2').1
  subst ht
  have h1 : a.1 = b.1 := e3.trans e3'.symm
  refine ⟨h1, fun key => ?_⟩
  by_cases hg : a.1 = some (ascii "geofeed") ∧ key = ascii "network"
  · obtain ⟨hg, rfl⟩ := hg
    obtain ⟨l1, x1, x2⟩ := a4 hg
    obtain ⟨l2, y1, y2⟩ := b4 (h1.symm.trans hg)
    rw [x2, y2, allValues_unique x1 y1]
  · refine Option.ext fun w => ?_
    rw [a3 key hg, b3 key (by rw [← h1]; exact hg)]

theorem readBlocks_spec : ∀ {bs : List (List Bytes)}, (∀ ts ∈ bs, ts ≠ []) →
    (∃ blocks, readBlocks bs = .ret blocks ∧ List.Forall₂ MeansBlock bs blocks) ∨
      (readBlocks bs = .exc .value ∧ ∃ ts ∈ bs, ∃ line ∈ ts, 58 ∉ line)
  | [], _ => .inl ⟨[], rfl, .nil⟩
  | ts :: bs, h => by
    by_cases hc : ∃ line ∈ ts, 58 ∉ line
    · refine .inr ⟨?_, ts, List.mem_cons_self, hc⟩
      rw [readBlocks, readBlock_raises hc]
    · obtain ⟨r, hr⟩ := readBlock_total (type := none) (d := []) (block := ts) fun line hl =>
        Classical.byContradiction fun hn => hc ⟨line, hl, hn⟩
      rcases readBlocks_spec fun t ht => h t (List.mem_cons_of_mem _ ht) with ⟨blocks, h1, h2⟩ | ⟨h1, t, ht, h2⟩
      · refine .inl ⟨r :: blocks, ?_, .cons (readBlock_means (h ts List.mem_cons_self) hr) h2⟩
        rw [readBlocks, hr, h1]
      · refine .inr ⟨?_, t, List.mem_cons_of_mem _ ht, h2⟩
        rw [readBlocks, hr, h1]

theorem inBlocks_nonempty {lines : List Bytes} {bs : List (List Bytes)} (h : InBlocks lines bs) : ∀ ts ∈ bs, ts ≠ [] := by
  induction h with
  | nil => simp
  | remark _ _ ih => exact ih
  | blank _ _ ih => exact ih
  | block _ hne _ _ ih =>
    intro ts ht
    rcases List.mem_cons.mp ht with rfl | ht
    · exact hne
    · exact ih ts ht

theorem blocks_of_file {file : Bytes} {lines : List Bytes} (h : IsLines file lines) (bs : List (List Bytes)) :
    iterBlocks [] (fileLines file) = bs ↔ InBlocks lines bs := by
  rw [fileLines_unique h]
  constructor
  · rintro rfl
    exact (inBlocks_complete lines (ended_of_lines h)).1
  · exact fun hb => inBlocks_sound hb (ended_of_lines h)

theorem readFile_spec (file : Bytes) : (∃ blocks, readFile file = .ret blocks ∧ Reads file blocks) ∨
    (readFile file = .exc .value ∧ ∃ lines bs, IsLines file lines ∧ InBlocks lines bs ∧ ∃ ts ∈ bs, ∃ line ∈ ts, 58 ∉ line) := by
  have hl := isLines_exists file
  have hb := (blocks_of_file hl _).mp rfl
  rcases readBlocks_spec (inBlocks_nonempty hb) with ⟨blocks, h1, h2⟩ | ⟨h1, h2⟩
  · exact .inl ⟨blocks, h1, _, _, hl, hb, h2⟩
  · exact .inr ⟨h1, _, _, hl, hb, h2⟩

theorem forall2_compose {α β : Type} {R : α → β → Prop} {S : β → β → Prop} (h : ∀ x a b, R x a → R x b → S a b) :
    ∀ {xs : List α} {as bs : List β}, List.Forall₂ R xs as → List.Forall₂ R xs bs → List.Forall₂ S as bs
  | _, _, _, .nil, .nil => .nil
  | _, _, _, .cons h1 h2, .cons h3 h4 => .cons (h _ _ _ h1 h3) (forall2_compose h h2 h4)

theorem reads_unique {file : Bytes} {as bs : List Blk} (ha : Reads file as) (hb : Reads file bs) : List.Forall₂ SameBlk as bs := by
  obtain ⟨l, x, h1, h2, h3⟩ := ha
  obtain ⟨l', x', h1', h2', h3'⟩ := hb
  have hl : l = l' := (fileLines_unique h1).symm.trans (fileLines_unique h1')
  subst hl
  have hx : x = x' := ((blocks_of_file h1 x).mpr h2).symm.trans ((blocks_of_file h1 x').mpr h2')
  subst hx
  exact forall2_compose (R := MeansBlock) (fun _ _ _ ha hb => means_unique ha hb) h3 h3'

theorem reads_colons {file : Bytes} {as : List Blk} (h : Reads file as) : ∃ blocks, readFile file = .ret blocks ∧ Reads file blocks := by
  rcases readFile_spec file with h' | ⟨-, l', bs', h1', h2', ts, hts, line, hline, hno⟩
  · exact h'
  · exfalso
    obtain ⟨l, bs, h1, h2, h3⟩ := h
    have hl : l = l' := (fileLines_unique h1).symm.trans (fileLines_unique h1')
    subst hl
    have hx : bs = bs' := ((blocks_of_file h1 bs).mpr h2).symm.trans ((blocks_of_file h1 bs').mpr h2')
    subst hx
    have : ∀ {bs : List (List Bytes)} {as : List Blk}, List.Forall₂ MeansBlock bs as → ∀ ts ∈ bs, ∀ line ∈ ts, (58 : Byte) ∈ line := by
      intro bs as h
      induction h with
      | nil => simp
      | cons hm _ ih =>
        intro ts ht
        rcases List.mem_cons.mp ht with rfl | ht
        · exact hm.1
        · exact ih ts ht
    exact hno (this h3 ts hts line hline)

/-! ## Several files -/

theorem overrideBlocks_append : ∀ (as bs : List Blk) (t : OverrideTables), overrideBlocks t (as ++ bs) =
    match overrideBlocks t as with
    | .exc x => .exc x
    | .ret t => overrideBlocks t bs
  | [], bs, t => rfl
  | (type, d) :: as, bs, t => by
    rw [List.cons_append, overrideBlocks, overrideBlocks]
    by_cases h1 : type = some (keyOf strNet)
    · rw [if_pos h1, if_pos h1, overrideBlocks_append]
    · rw [if_neg h1, if_neg h1]
      by_cases h2 : type = some (keyOf strAutNum)
      · rw [if_pos h2, if_pos h2]
        cases overrideAs t d with
        | exc x => rfl
        | ret t1 => exact overrideBlocks_append as bs t1
      · rw [if_neg h2, if_neg h2, overrideBlocks_append]

theorem overrideFiles_ret : ∀ {files : List Bytes} {t t' : OverrideTables}, overrideFiles t files = .ret t' →
    ∃ blocks, ReadsAll files blocks ∧ overrideBlocks t blocks = .ret t'
  | [], t, t', h => by
    cases h
    exact ⟨[], ⟨[], .nil, rfl⟩, rfl⟩
  | file :: files, t, t', h => by
    rw [overrideFiles] at h
    rcases readFile_spec file with ⟨blocks, h1, h2⟩ | ⟨h1, -⟩
    · rw [h1] at h
      simp only at h
      cases ho : overrideBlocks t blocks with
      | exc x => rw [ho] at h; cases h
      | ret t1 =>
        rw [ho] at h
        obtain ⟨more, ⟨bss, h3, rfl⟩, h4⟩ := overrideFiles_ret h
        refine ⟨blocks ++ bss.flatten, ⟨blocks :: bss, .cons h2 h3, rfl⟩, ?_⟩
        rw [overrideBlocks_append, ho]
        exact h4
    · rw [h1] at h; cases h

/-- The numbers of the ASes in the block fit the column. -/
def NumbersOk (b : Blk) : Prop :=
  b.1 = some (ascii "aut-num") → ∀ s, valueAt b.2 "aut-num" = some (.text (ascii "AS" ++ s)) → ∃ k, Digits k s ∧ k < 2 ^ 63

theorem take_AS {s : Bytes} (h : s.take 2 = [65, 83]) : s = ascii "AS" ++ s.drop 2 := by
  have hAS : ascii "AS" = [65, 83] := by decide
  rw [hAS, ← h, List.take_append_drop]

theorem overrideAs_ok {t : OverrideTables} {b : Blk} (hb : b.1 = some (keyOf strAutNum)) :
    (∃ t', overrideAs t b.2 = .ret t') ↔ NumbersOk b := by
  unfold NumbersOk
  rw [← keys_ascii.2.2.1, valueAt_eq, ← keys_ascii.2.2.1]
  simp only [hb, forall_const, ← textOf_iff]
  unfold overrideAs
  cases hs : textOf b.2 (keyOf strAutNum) with
  | none => simp
  | some s =>
    simp only [Option.some.injEq]
    by_cases h2 : s.take 2 = [65, 83]
    · rw [if_neg (by simpa using h2)]
      have hcong : (∀ x, s = ascii "AS" ++ x → ∃ k, Digits k x ∧ k < 2 ^ 63) ↔ ∃ k, Digits k (s.drop 2) ∧ k < 2 ^ 63 := by
        constructor
        · exact fun h => h _ (take_AS h2)
        · intro h x hx
          have : s.drop 2 = x := by rw [hx]; rfl
          rw [← this]
          exact h
      rw [hcong]
      simp only [← digitsOf_iff]
      cases hd : digitsOf (s.drop 2) with
      | none => simp
      | some k =>
        simp only [Option.some.injEq, exists_eq_left']
        by_cases hbig : 2 ^ 63 ≤ k
        · rw [if_pos hbig]
          simp only [reduceCtorEq, exists_false, false_iff]
          omega
        · rw [if_neg hbig]
          have hlt : k < 2 ^ 63 := by omega
          simp only [hlt, iff_true]
          split
          · exact ⟨_, rfl⟩
          · exact ⟨_, rfl⟩
    · rw [if_pos (by simpa using h2)]
      refine ⟨fun _ x hx => absurd ?_ h2, fun _ => ⟨_, rfl⟩⟩
      rw [hx]
      rfl

theorem overrideBlocks_ok : ∀ {bs : List Blk} {t : OverrideTables}, (∃ t', overrideBlocks t bs = .ret t') ↔ ∀ b ∈ bs, NumbersOk b
  | [], t => by simp [overrideBlocks]
  | (type, d) :: bs, t => by
    rw [overrideBlocks, List.forall_mem_cons]
    have hno : type ≠ some (keyOf strAutNum) → NumbersOk (type, d) := by
      intro h hc
      exact absurd (hc.trans (by rw [keys_ascii.2.2.1])) h
    by_cases h1 : type = some (keyOf strNet)
    · rw [if_pos h1, overrideBlocks_ok]
      exact (and_iff_right (hno (fun he => types_differ (he.symm.trans h1)))).symm
    · rw [if_neg h1]
      by_cases h2 : type = some (keyOf strAutNum)
      · rw [if_pos h2]
        have hiff := overrideAs_ok (t := t) (b := (type, d)) h2
        cases ho : overrideAs t d with
        | exc x =>
          constructor
          · rintro ⟨_, hc⟩; cases hc
          · intro hc
            obtain ⟨t', ht'⟩ := hiff.mpr hc.1
            have ht'' : overrideAs t d = .ret t' := ht'
            rw [ho] at ht''
            cases ht''
        | ret t1 =>
          rw [overrideBlocks_ok]
          exact (and_iff_right (hiff.mp ⟨t1, ho⟩)).symm
      · rw [if_neg h2, overrideBlocks_ok]
        exact (and_iff_right (hno h2)).symm

theorem numbersOk_same {a b : Blk} (h : SameBlk a b) (ha : NumbersOk a) : NumbersOk b := by
  intro hb s hs
  refine ha (h.1.trans hb) s ?_
  unfold valueAt at hs ⊢
  rw [h.2]
  exact hs

theorem overrideFiles_ok : ∀ {files : List Bytes} {t : OverrideTables} {blocks : List Blk}, ReadsAll files blocks →
    (∀ b ∈ blocks, NumbersOk b) → ∃ t', overrideFiles t files = .ret t'
  | [], t, blocks, _, _ => ⟨t, rfl⟩
  | file :: files, t, blocks, ⟨bss, h, he⟩, hn => by
    cases h with
    | @cons _ bl _ bss h1 h2 =>
      subst he
      obtain ⟨bl', h3, h4⟩ := reads_colons h1
      have hsame := reads_unique h1 h4
      have hall : ∀ {x y : List Blk}, List.Forall₂ SameBlk x y → (∀ b ∈ x, NumbersOk b) → ∀ b ∈ y, NumbersOk b := by
        intro x y h
        induction h with
        | nil => simp
        | cons hs _ ih =>
          intro hx b hb
          rcases List.mem_cons.mp hb with rfl | hb
          · exact numbersOk_same hs (hx _ List.mem_cons_self)
          · exact ih (fun b hb => hx b (List.mem_cons_of_mem _ hb)) b hb
      obtain ⟨t1, ht1⟩ := (overrideBlocks_ok (t := t)).mpr (hall hsame fun b hb => hn b (by
        rw [List.flatten_cons]; exact List.mem_append_left _ hb))
      obtain ⟨t2, ht2⟩ := overrideFiles_ok (t := t1) ⟨bss, h2, rfl⟩ fun b hb => hn b (by
        rw [List.flatten_cons]; exact List.mem_append_right _ hb)
      exact ⟨t2, by rw [overrideFiles, h3]; simp only; rw [ht1]; exact ht2⟩

/-! ## One row per key -/

theorem overrideNet_nodup {t : OverrideTables} (d : BlockData) (h : (t.networks.map (·.1)).Nodup) :
    ((overrideNet t d).networks.map (·.1)).Nodup := by
  unfold overrideNet
  split
  · exact h
  · rename_i n _
    split
    · exact h
    · split
      · exact h
      · rename_i hany
        rw [List.map_append, List.nodup_append]
        refine ⟨h, by simp, ?_⟩
        intro a ha b hb
        simp only [List.map_cons, List.map_nil, List.mem_singleton] at hb
        rintro rfl
        subst hb
        obtain ⟨y, hy, he⟩ := List.mem_map.mp ha
        exact hany (List.any_eq_true.mpr ⟨y, hy, decide_eq_true he⟩)

theorem overrideAs_nodup {t t' : OverrideTables} {d : BlockData} (ho : overrideAs t d = .ret t') (h : (t.autnums.map (·.1)).Nodup) :
    (t'.autnums.map (·.1)).Nodup := by
  unfold overrideAs at ho
  split at ho
  · cases ho; exact h
  · split at ho
    · cases ho; exact h
    · split at ho
      · cases ho
      · split at ho
        · cases ho
        · split at ho
          · cases ho; exact h
          · rename_i hany
            cases ho
            rw [List.map_append, List.nodup_append]
            refine ⟨h, by simp, ?_⟩
            intro a ha b hb
            simp only [List.map_cons, List.map_nil, List.mem_singleton] at hb
            rintro rfl
            subst hb
            obtain ⟨y, hy, he⟩ := List.mem_map.mp ha
            exact hany (List.any_eq_true.mpr ⟨y, hy, decide_eq_true he⟩)

theorem overrideBlocks_nodup : ∀ {bs : List Blk} {t t' : OverrideTables}, overrideBlocks t bs = .ret t' →
    (t.networks.map (·.1)).Nodup → (t.autnums.map (·.1)).Nodup → (t'.networks.map (·.1)).Nodup ∧ (t'.autnums.map (·.1)).Nodup
  | [], t, t', h, h1, h2 => by cases h; exact ⟨h1, h2⟩
  | (type, d) :: bs, t, t', h, h1, h2 => by
    rw [overrideBlocks] at h
    by_cases hn : type = some (keyOf strNet)
    · rw [if_pos hn] at h
      refine overrideBlocks_nodup h (overrideNet_nodup d h1) ?_
      have : (overrideNet t d).autnums = t.autnums := by
        unfold overrideNet
        split
        · rfl
        · split
          · rfl
          · split <;> rfl
      rw [this]
      exact h2
    · rw [if_neg hn] at h
      by_cases ha : type = some (keyOf strAutNum)
      · rw [if_pos ha] at h
        cases ho : overrideAs t d with
        | exc x => rw [ho] at h; cases h
        | ret t1 =>
          rw [ho] at h
          refine overrideBlocks_nodup h ?_ (overrideAs_nodup ho h2)
          rw [(overrideAs_mem (b := (type, d)) ha ho).2.1]
          exact h1
      · rw [if_neg ha] at h
        exact overrideBlocks_nodup h h1 h2

theorem saysName_iff (d : BlockData) (name : Option CStr) : SaysName d name ↔ name = textOf d (keyOf strName) := by
  unfold SaysName
  rw [keys_ascii.2.2.2.2.2.2.2, valueAt_eq]
  constructor
  · intro h
    refine Option.ext fun s => ?_
    rw [h s]
    exact textOf_iff.symm
  · intro h s
    rw [h]
    exact textOf_iff

/-! ## A dump as overrides -/

theorem firstBlock_unique {P : Blk → Prop} {bs : List Blk} (h : ∀ a ∈ bs, ∀ b ∈ bs, P a → P b → a = b) (x : Blk) :
    FirstBlock P bs x ↔ x ∈ bs ∧ P x := by
  constructor
  · rintro ⟨pre, post, rfl, h1, -⟩
    exact ⟨List.mem_append_right _ List.mem_cons_self, h1⟩
  · rintro ⟨h1, h2⟩
    induction bs with
    | nil => cases h1
    | cons b bs ih =>
      rw [firstBlock_cons]
      by_cases hb : P b
      · exact .inl ⟨hb, h x h1 b List.mem_cons_self h2 hb⟩
      · refine .inr ⟨hb, ih (fun a ha c hc => h a (List.mem_cons_of_mem _ ha) c (List.mem_cons_of_mem _ hc)) ?_⟩
        rcases List.mem_cons.mp h1 with rfl | h1
        · exact absurd h2 hb
        · exact h1

theorem describesNet_says {b : Blk} {n : Network} (h : DescribesNet b n) {m : Marks} : SaysMarks b.2 m ↔ MarksFrom n m := by
  obtain ⟨-, -, h3, -, h5, h6, h7, h8⟩ := h
  have key : ∀ (k : String) (p : Prop) [Decidable p], valueAt b.2 k = (if p then some (.text (ascii "yes")) else none) →
      ∀ v, SaysBool b.2 k v ↔ v = if p then some true else none := by
    intro k p _ hk v
    unfold SaysBool
    rw [hk]
    have e1 : (ascii "yes").map lower ∈ [ascii "yes", ascii "1"] := by decide
    have e2 : ¬ (ascii "yes").map lower ∈ [ascii "no", ascii "0"] := by decide
    by_cases hp : p
    · rw [if_pos hp, if_pos hp]
      constructor
      · exact fun h => h.1.mpr ⟨_, rfl, e1⟩
      · rintro rfl
        refine ⟨⟨fun _ => ⟨_, rfl, e1⟩, fun _ => rfl⟩, ⟨fun h => by simp at h, ?_⟩⟩
        rintro ⟨s, hs, hm⟩
        cases hs
        exact absurd hm e2
    · rw [if_neg hp, if_neg hp]
      constructor
      · intro h
        rcases v with _ | v
        · rfl
        · cases v
          · obtain ⟨s, hs, -⟩ := h.2.mp rfl
            cases hs
          · obtain ⟨s, hs, -⟩ := h.1.mp rfl
            cases hs
      · rintro rfl
        constructor
        · constructor
          · intro h; cases h
          · rintro ⟨s, hs, -⟩; cases hs
        · constructor
          · intro h; cases h
          · rintro ⟨s, hs, -⟩; cases hs
  unfold SaysMarks MarksFrom
  rw [key _ _ h5, key _ _ h6, key _ _ h7, key _ _ h8]
  refine and_congr ?_ Iff.rfl
  rw [h3]
  by_cases hp : (props n).1 = []
  · rw [if_pos hp, if_pos hp]
    constructor
    · intro h
      refine Option.ext fun s => ?_
      rw [h s]
      simp
    · intro h s
      rw [h]
      simp
  · rw [if_neg hp, if_neg hp]
    constructor
    · intro h
      exact (h _).mpr rfl
    · intro h s
      rw [h]
      simp

theorem valueAt_net (n : Network) : valueAt (entryData (netItems n)).2 "net" = some (.text (netText n)) := by
  have hk := keys_ascii.1
  unfold valueAt entryData
  rw [← hk]
  simp only [netItems, List.cons_append, List.map_cons, itemData]
  rw [List.lookup_cons_self]

theorem netText_names {n : Network} (hb : Block n) (n' : Network) : NamesNet (netText n) n' ↔ newNetwork n.first (netPrefix n) = .ok n' := by
  rw [← ipNetwork_iff, ← toOption_iff]
  have h3 := (network_parse hb).2.2
  have hw : width n.first = familyBitLength (addrFamily n.first) := by
    unfold width familyBitLength addrFamily
    have hv := isV4Mapped_iff n.first
    by_cases h : IsV4 n.first
    · rw [if_pos h, if_pos (hv.mpr h)]
    · rw [if_neg h, if_neg (fun h' => h (hv.mp h'))]
  have hden : Denotes (addrText n.first) n.first := parseText_iff.mp ⟨_, addrText_denotes n.first⟩
  have hno := text_no_slash hden
  unfold ipNetwork netText
  rw [(split_byte hno).1, addrText_denotes n.first]
  simp only
  rw [if_pos (by simp), (split_byte hno).2, List.drop_succ_cons, List.drop_zero,
    digitsOf_iff.mpr (numeral_digits (decStr_numeral (netPrefix_small hb)))]
  simp only
  rw [if_pos (by rw [← hw]; exact h3)]

theorem asBlock_about (k number : Nat) (name : CStr) (hn : number < 10 ^ 10) : AboutAs k (entryData (asItems number name)) ↔ k = number := by
  obtain ⟨h1, ⟨s, h2, h3⟩, -⟩ := describes_as name hn
  unfold AboutAs
  rw [h2]
  simp only [h1, true_and, Option.some.injEq, BlockValue.text.injEq, List.append_cancel_left_eq, exists_eq_left']
  have := numeral_digits h3
  rw [← digitsOf_iff] at this ⊢
  rw [this]
  simp [eq_comm]

theorem netBlock_about {n : Network} (hb : Block n) (n' : Network) : AboutNet n' (entryData (netItems n)) ↔
    newNetwork n.first (netPrefix n) = .ok n' := by
  unfold AboutNet
  rw [valueAt_net, ← netText_names hb]
  simp only [(describes_net hb).1, true_and, Option.some.injEq, BlockValue.text.injEq, exists_eq_left']

end Loc
