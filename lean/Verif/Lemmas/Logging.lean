import Verif.Spec.Logging
/-
Lemmas for C81 and C82
-/
namespace Loc
open Spec

/-! ## Priorities -/

theorem decimal_go (ds : Bytes) (n : Nat) : ds.foldl (fun n c => 10 * n + (c.toNat - 48)) n = n * 10 ^ ds.length + valueOf ds := by
  induction ds generalizing n with
  | nil => simp [valueOf]
  | cons c cs ih =>
    rw [List.foldl_cons, ih]
    have hv : valueOf (c :: cs) = (c.toNat - 48) * 10 ^ cs.length + valueOf cs := rfl
    rw [hv]
    rw [List.length_cons, Nat.pow_succ, Nat.add_mul]
    have : 10 * n * 10 ^ cs.length = n * (10 ^ cs.length * 10) := by
      rw [Nat.mul_comm 10 n, Nat.mul_assoc, Nat.mul_comm 10]
    omega

theorem decimal_eq (ds : Bytes) : decimal ds = valueOf ds := by
  unfold decimal
  rw [decimal_go]
  omega

theorem dropWhile_blank {p : Byte → Bool} {a b : Bytes} (ha : ∀ c ∈ a, p c = true) (hb : ∀ c, b.head? = some c → p c = false) :
    (a ++ b).dropWhile p = b := by
  induction a with
  | nil =>
    cases b with
    | nil => rfl
    | cons c b => rw [List.nil_append, List.dropWhile_cons, if_neg (by rw [hb c rfl]; decide)]
  | cons c a ih =>
    rw [List.cons_append, List.dropWhile_cons, if_pos (ha c List.mem_cons_self)]
    exact ih fun x hx => ha x (List.mem_cons_of_mem _ hx)

theorem takeWhile_blank {p : Byte → Bool} {a b : Bytes} (ha : ∀ c ∈ a, p c = true) (hb : ∀ c, b.head? = some c → p c = false) :
    (a ++ b).takeWhile p = a := by
  induction a with
  | nil =>
    cases b with
    | nil => rfl
    | cons c b => rw [List.nil_append, List.takeWhile_cons, if_neg (by rw [hb c rfl]; decide)]
  | cons c a ih =>
    rw [List.cons_append, List.takeWhile_cons, if_pos (ha c List.mem_cons_self), ih fun x hx => ha x (List.mem_cons_of_mem _ hx)]

theorem digit_spaceless {c : Byte} (h : 48 ≤ c.toNat ∧ c.toNat ≤ 57) : cSpace c = false ∧ c ≠ 45 ∧ c ≠ 43 := by
  have h1 : c ≠ 32 := by
    rintro rfl
    exact absurd h.1 (by decide)
  refine ⟨?_, ?_, ?_⟩
  · unfold cSpace
    simp only [h1, decide_false, Bool.or_false, decide_eq_false_iff_not]
    omega
  · rintro rfl
    exact absurd h.1 (by decide)
  · rintro rfl
    exact absurd h.1 (by decide)

theorem space_digitless {c : Byte} (h : cSpace c = true) : cDigit c = false := by
  unfold cSpace at h
  unfold cDigit
  rw [decide_eq_false_iff_not]
  rcases Bool.or_eq_true _ _ |>.mp h with h | h
  · have := of_decide_eq_true h
    omega
  · have := of_decide_eq_true h
    rw [this]
    decide

theorem cDigit_iff {c : Byte} : cDigit c = true ↔ 48 ≤ c.toNat ∧ c.toNat ≤ 57 := by
  unfold cDigit
  exact decide_eq_true_iff

/-- The sign, and the digits behind it -/
theorem strtol_number {s : Bytes} {neg : Bool} {ds : Bytes} (h : NumberText s neg ds) :
    ∃ rest, strtol10 s = (max (-2 ^ 63) (min (2 ^ 63 - 1) (if neg then -(valueOf ds : Int) else valueOf ds)), rest) ∧
      ∀ c, rest.head? = some c → cSpace c = true := by
  obtain ⟨blank, sign, rest, rfl, hb, hsg, hne, hds, hr⟩ := h
  obtain ⟨d0, ds', rfl⟩ := List.exists_cons_of_ne_nil hne
  have hd0 := digit_spaceless (hds d0 List.mem_cons_self)
  have hdig : ∀ c ∈ d0 :: ds', cDigit c = true := fun c hc => cDigit_iff.mpr (hds c hc)
  have hrd : ∀ c, rest.head? = some c → cDigit c = false := fun c hc => space_digitless (hr c hc)
  have htake : ((d0 :: ds') ++ rest).takeWhile cDigit = d0 :: ds' := takeWhile_blank hdig hrd
  have hdrop : ((d0 :: ds') ++ rest).dropWhile cDigit = rest := dropWhile_blank hdig hrd
  have hskip : (blank ++ sign ++ (d0 :: ds') ++ rest).dropWhile cSpace = sign ++ ((d0 :: ds') ++ rest) := by
    rw [List.append_assoc, List.append_assoc]
    apply dropWhile_blank hb
    intro c hc
    cases neg with
    | true =>
      rw [if_pos rfl] at hsg
      rw [hsg] at hc
      cases hc
      decide
    | false =>
      rw [if_neg (by decide)] at hsg
      rcases hsg with hsg | hsg
      · rw [hsg] at hc
        cases hc
        exact hd0.1
      · rw [hsg] at hc
        cases hc
        decide
  refine ⟨rest, ?_, hr⟩
  unfold strtol10
  simp only
  rw [hskip]
  cases neg with
  | true =>
    rw [if_pos rfl] at hsg
    subst hsg
    have h1 : (([45] : Bytes) ++ ((d0 :: ds') ++ rest)).head? == some 45 := rfl
    rw [h1, Bool.true_or, if_pos rfl]
    rw [show (([45] : Bytes) ++ ((d0 :: ds') ++ rest)).drop 1 = (d0 :: ds') ++ rest from rfl, htake, hdrop]
    rw [if_neg (fun h => Bool.noConfusion h), if_pos rfl, if_pos rfl, decimal_eq]
  | false =>
    rw [if_neg (by decide)] at hsg
    rcases hsg with hsg | hsg
    · subst hsg
      have h1 : ((([] : Bytes) ++ ((d0 :: ds') ++ rest)).head? == some 45) = false := by
        show (some d0 == some 45) = false
        rw [beq_eq_false_iff_ne]
        intro h
        exact hd0.2.1 (Option.some.inj h)
      have h2 : ((([] : Bytes) ++ ((d0 :: ds') ++ rest)).head? == some 43) = false := by
        show (some d0 == some 43) = false
        rw [beq_eq_false_iff_ne]
        intro h
        exact hd0.2.2 (Option.some.inj h)
      rw [h1, h2, Bool.false_or]
      simp only [Bool.false_eq_true, if_false]
      rw [List.nil_append, htake, hdrop, if_neg (fun h => Bool.noConfusion h), decimal_eq]
    · subst hsg
      have h1 : ((([43] : Bytes) ++ ((d0 :: ds') ++ rest)).head? == some 45) = false := rfl
      have h2 : ((([43] : Bytes) ++ ((d0 :: ds') ++ rest)).head? == some 43) = true := rfl
      rw [h1, h2, Bool.false_or, if_pos rfl]
      rw [show (([43] : Bytes) ++ ((d0 :: ds') ++ rest)).drop 1 = (d0 :: ds') ++ rest from rfl, htake, hdrop]
      rw [if_neg (fun h => Bool.noConfusion h)]
      simp only [Bool.false_eq_true, if_false]
      rw [decimal_eq]

theorem rest_ok {rest : Bytes} (h : ∀ c, rest.head? = some c → cSpace c = true) :
    (rest.isEmpty || (rest.head?.map cSpace) == some true) = true := by
  cases rest with
  | nil => rfl
  | cons c r =>
    rw [List.head?_cons, Option.map_some, h c rfl]
    rfl

theorem toInt32_small {v : Int} (h1 : -2 ^ 31 ≤ v) (h2 : v < 2 ^ 31) : toInt32 v = v := by
  unfold toInt32
  rw [BitVec.toInt_ofInt]
  exact Int.bmod_eq_of_le (by omega) (by omega)

/-- When a number is found -/
theorem strtol_found {s rest : Bytes} {v : Int} (h : strtol10 s = (v, rest)) :
    (v = 0 ∧ rest = s) ∨ ((∀ c, rest.head? = some c → cSpace c = true) → ∃ neg ds, NumberText s neg ds) := by
  unfold strtol10 at h
  simp only at h
  generalize hU : (if (s.dropWhile cSpace).head? == some 45 || (s.dropWhile cSpace).head? == some 43 then (s.dropWhile cSpace).drop 1
    else s.dropWhile cSpace) = u at h
  split at h
  · cases h
    exact .inl ⟨rfl, rfl⟩
  · rename_i hne
    right
    intro hr
    have hne' : ∀ {l : Bytes}, ¬ (l.takeWhile cDigit).isEmpty = true → l.takeWhile cDigit ≠ [] := by
      intro l h h'
      rw [h'] at h
      exact h rfl
    have hs : s = s.takeWhile cSpace ++ s.dropWhile cSpace := (List.takeWhile_append_dropWhile).symm
    have hblank : ∀ c ∈ s.takeWhile cSpace, cSpace c = true := fun c hc => by
      have := List.all_takeWhile (l := s) (p := cSpace)
      exact List.all_eq_true.mp this c hc
    have hdig : ∀ (l : Bytes), ∀ c ∈ l.takeWhile cDigit, 48 ≤ c.toNat ∧ c.toNat ≤ 57 := fun l c hc => by
      have := List.all_takeWhile (l := l) (p := cDigit)
      exact cDigit_iff.mp (List.all_eq_true.mp this c hc)
    generalize hB : s.takeWhile cSpace = blank at hs hblank
    generalize s.dropWhile cSpace = t at hs hU h
    cases t with
    | nil =>
      subst hU
      exact absurd rfl hne
    | cons c t =>
      by_cases h45 : c = 45
      · subst h45
        have hu : (if ((45 : Byte) :: t).head? == some 45 || ((45 : Byte) :: t).head? == some 43 then ((45 : Byte) :: t).drop 1 else 45 :: t) = t := rfl
        rw [hu] at hU
        subst hU
        injection h with _ h2
        refine ⟨true, t.takeWhile cDigit, blank, [45], t.dropWhile cDigit, ?_, hblank, rfl, hne' hne, hdig t, ?_⟩
        · rw [hs, List.append_assoc, List.append_assoc, List.takeWhile_append_dropWhile]
          rfl
        · rw [h2]
          exact hr
      · by_cases h43 : c = 43
        · subst h43
          have hu : (if ((43 : Byte) :: t).head? == some 45 || ((43 : Byte) :: t).head? == some 43 then ((43 : Byte) :: t).drop 1 else 43 :: t) = t := rfl
          rw [hu] at hU
          subst hU
          injection h with _ h2
          refine ⟨false, t.takeWhile cDigit, blank, [43], t.dropWhile cDigit, ?_, hblank, .inr rfl, hne' hne, hdig t, ?_⟩
          · rw [hs, List.append_assoc, List.append_assoc, List.takeWhile_append_dropWhile]
            rfl
          · rw [h2]
            exact hr
        · have h1 : ((c :: t).head? == some 45) = false := by
            rw [beq_eq_false_iff_ne]
            intro h
            exact h45 (Option.some.inj h)
          have h2 : ((c :: t).head? == some 43) = false := by
            rw [beq_eq_false_iff_ne]
            intro h
            exact h43 (Option.some.inj h)
          rw [h1, h2, Bool.false_or, if_neg (by decide)] at hU
          subst hU
          injection h with _ h2
          refine ⟨false, (c :: t).takeWhile cDigit, blank, [], (c :: t).dropWhile cDigit, ?_, hblank, .inl rfl, hne' hne, hdig _, ?_⟩
          · rw [hs, List.append_nil, List.append_assoc, List.takeWhile_append_dropWhile]
          · rw [h2]
            exact hr

/-! ## Messages -/

theorem getLast_cons {α : Type} (a : α) (l : List α) (start : α) : ((a :: l).getLast?).getD start = (l.getLast?).getD a := by
  cases l with
  | nil => rfl
  | cons b l =>
    rw [List.getLast?_cons_cons]
    cases h : (b :: l).getLast? with
    | none => exact absurd (List.getLast?_eq_none_iff.mp h) (by simp)
    | some x => rfl

theorem lastPriority_cons (start : Int) (op : LogOp) (ops : List LogOp) :
    lastPriority start (op :: ops) = lastPriority (match op with | .priority p => p | _ => start) ops := by
  unfold lastPriority
  cases op with
  | priority p => exact getLast_cons p _ start
  | callback c => rw [List.filterMap_cons_none rfl]
  | fn => rw [List.filterMap_cons_none rfl]
  | message p => rw [List.filterMap_cons_none rfl]

theorem lastCallback_go (start : Nat × Nat) (op : LogOp) (ops : List LogOp) :
    (((op :: ops).filterMap fun | .callback c => some c | _ => none).getLast?).getD start =
    ((ops.filterMap fun | .callback c => some c | _ => none).getLast?).getD (match op with | .callback c => c | _ => start) := by
  cases op with
  | callback c => exact getLast_cons c _ start
  | priority p => rw [List.filterMap_cons_none rfl]
  | fn => rw [List.filterMap_cons_none rfl]
  | message p => rw [List.filterMap_cons_none rfl]

theorem logRun_get (debug : Bool) (c : LogCtx) (ops : List LogOp) (i : Nat) (op : LogOp) (h : ops[i]? = some op) :
    (logRun debug c ops)[i]? = some (logStep debug ⟨lastPriority c.priority (ops.take i),
      (((ops.take i).filterMap fun | .callback c => some c | _ => none).getLast?).getD c.callback⟩ op).2 := by
  induction ops generalizing c i with
  | nil => cases h
  | cons a ops ih =>
    cases i with
    | zero =>
      cases h
      rfl
    | succ i =>
      rw [List.getElem?_cons_succ] at h
      have hu : logRun debug c (a :: ops) = (logStep debug c a).2 :: logRun debug (logStep debug c a).1 ops := rfl
      rw [hu, List.getElem?_cons_succ, ih _ i h, List.take_succ_cons, lastPriority_cons, lastCallback_go]
      cases a <;> rfl

/-! ## Hexadecimal numbers -/

theorem hexValue_char {n : Nat} (h : n < 16) : hexValue (hexChar n) = some n := by
  have : ∀ n : Fin 16, hexValue (hexChar n.val) = some n.val := by decide
  exact this ⟨n, h⟩

theorem hexChar_ne {n : Nat} (h : n < 16) : hexChar n ≠ 0 := by
  have : ∀ n : Fin 16, hexChar n.val ≠ 0 := by decide
  exact this ⟨n, h⟩

theorem hexDigits_text {fuel n : Nat} (h : n < 16 ^ fuel) : fuel ≠ 0 → HexText (hexDigits fuel n) n := by
  induction fuel generalizing n with
  | zero => exact fun h => absurd rfl h
  | succ fuel ih =>
    intro _
    have hu : hexDigits (fuel + 1) n = if n < 16 then [hexChar n] else hexDigits fuel (n / 16) ++ [hexChar (n % 16)] := rfl
    rw [hu]
    by_cases h16 : n < 16
    · rw [if_pos h16]
      have := HexText.snoc .nil (hexValue_char h16)
      rw [Nat.mul_zero, Nat.zero_add] at this
      exact this
    · rw [if_neg h16]
      have hf : fuel ≠ 0 := by
        rintro rfl
        rw [Nat.zero_add, Nat.pow_one] at h
        exact h16 h
      have h1 : n / 16 < 16 ^ fuel := by
        rw [Nat.pow_succ] at h
        exact Nat.div_lt_of_lt_mul (by rw [Nat.mul_comm]; exact h)
      have := HexText.snoc (ih h1 hf) (hexValue_char (Nat.mod_lt n (by decide : 0 < 16)))
      rw [Nat.div_add_mod] at this
      exact this

theorem hexDigits_length {fuel k n : Nat} (hk : 0 < k) (h : n < 16 ^ k) : (hexDigits fuel n).length ≤ k := by
  induction fuel generalizing k n with
  | zero => exact Nat.zero_le _
  | succ fuel ih =>
    have hu : hexDigits (fuel + 1) n = if n < 16 then [hexChar n] else hexDigits fuel (n / 16) ++ [hexChar (n % 16)] := rfl
    rw [hu]
    by_cases h16 : n < 16
    · rw [if_pos h16]
      exact hk
    · rw [if_neg h16, List.length_append]
      cases k with
      | zero => exact absurd hk (Nat.lt_irrefl _)
      | succ k =>
        have hk0 : 0 < k := by
          rcases Nat.eq_zero_or_pos k with rfl | h0
          · exact absurd (by simpa using h) h16
          · exact h0
        have h1 : n / 16 < 16 ^ k := by
          rw [Nat.pow_succ] at h
          exact Nat.div_lt_of_lt_mul (by rw [Nat.mul_comm]; exact h)
        have := ih hk0 h1
        simp only [List.length_cons, List.length_nil]
        omega

theorem hexDigits_ne (fuel n : Nat) : ∀ c ∈ hexDigits fuel n, c ≠ 0 := by
  induction fuel generalizing n with
  | zero => exact fun c h => by cases h
  | succ fuel ih =>
    have hu : hexDigits (fuel + 1) n = if n < 16 then [hexChar n] else hexDigits fuel (n / 16) ++ [hexChar (n % 16)] := rfl
    rw [hu]
    intro c hc
    by_cases h16 : n < 16
    · rw [if_pos h16] at hc
      rw [List.mem_singleton.mp hc]
      exact hexChar_ne h16
    · rw [if_neg h16] at hc
      rcases List.mem_append.mp hc with hc | hc
      · exact ih _ c hc
      · rw [List.mem_singleton.mp hc]
        exact hexChar_ne (Nat.mod_lt n (by decide))

theorem hexText_zeros {t : Bytes} {n : Nat} (h : HexText t n) (k : Nat) : HexText (List.replicate k 48 ++ t) n := by
  induction h with
  | nil =>
    rw [List.append_nil]
    induction k with
    | zero => exact .nil
    | succ k ih =>
      rw [List.replicate_succ']
      exact HexText.snoc (v := 0) ih (by decide)
  | snoc _ hv ih =>
    rw [← List.append_assoc]
    exact .snoc ih hv

theorem hex04_text {n : Nat} (h : n < 65536) : HexText (hex04 n) n ∧ (hex04 n).length = 4 := by
  have h1 : n < 16 ^ 8 := Nat.lt_trans h (by decide)
  have h2 := hexDigits_length (fuel := 8) (k := 4) (by decide) (show n < 16 ^ 4 from h)
  refine ⟨hexText_zeros (hexDigits_text h1 (by decide)) _, ?_⟩
  unfold hex04
  rw [List.length_append, List.length_replicate]
  omega

theorem hex04_length (n : Nat) (h : n < 2 ^ 32) : 4 ≤ (hex04 n).length ∧ (hex04 n).length ≤ 8 := by
  have h2 := hexDigits_length (fuel := 8) (k := 8) (by decide) (show n < 16 ^ 8 from h)
  unfold hex04
  rw [List.length_append, List.length_replicate]
  omega

theorem hex04_ne (n : Nat) : ∀ c ∈ hex04 n, c ≠ 0 := by
  intro c hc
  rcases List.mem_append.mp hc with hc | hc
  · rw [List.eq_of_mem_replicate hc]
    decide
  · exact hexDigits_ne _ _ c hc

theorem hex02_text (b : Byte) : HexText (hex02 b) b.toNat := by
  have h1 : b.toNat / 16 < 16 := by have := b.isLt; omega
  have h2 : b.toNat % 16 < 16 := Nat.mod_lt _ (by decide)
  have := HexText.snoc (HexText.snoc .nil (hexValue_char h1)) (hexValue_char h2)
  rw [Nat.mul_zero, Nat.zero_add, Nat.div_add_mod] at this
  exact this

theorem hex02_ne (b : Byte) : ∀ c ∈ hex02 b, c ≠ 0 := by
  intro c hc
  rcases List.mem_cons.mp hc with rfl | hc
  · exact hexChar_ne (by have := b.isLt; omega)
  · rw [List.mem_singleton.mp hc]
    exact hexChar_ne (Nat.mod_lt _ (by decide))

/-! ## Arrays -/

theorem poke_at {X Y b : Bytes} {i : Nat} (hX : X.length = i) (h : i + b.length ≤ (X ++ Y).length) :
    poke (X ++ Y) i b = .ok (X ++ (b ++ Y.drop b.length)) := by
  unfold poke
  rw [if_pos h, List.take_left' hX, List.drop_append, hX, List.drop_eq_nil_of_le (by omega), List.nil_append, List.append_assoc]
  congr 4
  omega

theorem stringIn_eq {X Y : Bytes} (h : ∀ c ∈ X, c ≠ 0) : stringIn (X ++ 0 :: Y) = .ok X := by
  unfold stringIn
  rw [if_pos (by rw [List.contains_iff_mem]; simp), takeWhile_blank (fun c hc => decide_eq_true (h c hc))]
  intro c hc
  cases hc
  decide

/-! ## Lines -/

def cell (b : Byte) : Bytes := 32 :: hex02 b

def shownAs (b : Byte) : Byte := if b.toNat < 0x20 ∨ b.toNat > 0x7e then 46 else b

def off5 (i : Nat) : Bytes := (hex04 i ++ [32]).take 5

def lineOf (i : Nat) (c : Bytes) : Bytes × Bytes :=
  (off5 i ++ c.flatMap cell ++ List.replicate (3 * (16 - c.length)) 32, c.map shownAs)

theorem off5_length {i : Nat} (h : i < 2 ^ 32) : (off5 i).length = 5 := by
  unfold off5
  have := hex04_length i h
  rw [List.length_take, List.length_append]
  simp only [List.length_cons, List.length_nil]
  omega

theorem off5_ne (i : Nat) : ∀ c ∈ off5 i, c ≠ 0 := by
  intro c hc
  have := List.mem_of_mem_take hc
  rcases List.mem_append.mp this with h | h
  · exact hex04_ne _ c h
  · rw [List.mem_singleton.mp h]
    decide

theorem cells_length (c : Bytes) : (c.flatMap cell).length = 3 * c.length := by
  induction c with
  | nil => rfl
  | cons b c ih =>
    rw [List.flatMap_cons, List.length_append, ih, List.length_cons]
    show 3 + _ = _
    omega

theorem cells_ne (c : Bytes) : ∀ x ∈ c.flatMap cell, x ≠ 0 := by
  intro x hx
  obtain ⟨b, -, hb⟩ := List.mem_flatMap.mp hx
  rcases List.mem_cons.mp hb with rfl | hb
  · decide
  · exact hex02_ne b x hb

theorem shown_ne (c : Bytes) : ∀ x ∈ c.map shownAs, x ≠ 0 := by
  intro x hx
  obtain ⟨b, -, rfl⟩ := List.mem_map.mp hx
  unfold shownAs
  split
  · decide
  · rename_i h
    intro h0
    rw [h0] at h
    exact h (.inl (by decide))

/-- A line that is being written -/
structure OnLine (s : HexState) (i : Nat) (c : Bytes) : Prop where
  hex : ∃ rest, s.hex = off5 i ++ c.flatMap cell ++ 0 :: rest
  hexLen : s.hex.length = 54
  ascii : ∃ rest, s.ascii = c.map shownAs ++ 0 :: rest
  asciiLen : s.ascii.length = 17

/-- Behind the offset, the first of the bytes overwrites what is longer than five characters. -/
theorem cell_first {s : HexState} {i : Nat} (hi : i < 2 ^ 32) (h1 : s.hex.length = 54) (h2 : s.ascii.length = 17) (b : Byte) :
    ∃ h a, poke s.hex 0 (hex04 i ++ ([32, 0] : Bytes)) = .ok h ∧
      ∃ h', poke h 5 (cell b ++ [0]) = .ok h' ∧ ∃ a', poke s.ascii 0 [shownAs b] = .ok a' ∧ poke a' 1 [0] = .ok a ∧
        ∀ l, OnLine ⟨h', a, l⟩ i [b] := by
  have hl := hex04_length i hi
  have hp := poke_at (X := []) (Y := s.hex) (b := hex04 i ++ ([32, 0] : Bytes)) (i := 0) rfl (by
    rw [List.length_append, List.nil_append, h1]
    simp only [List.length_cons, List.length_nil]
    omega)
  rw [List.nil_append, List.nil_append] at hp
  have ha := poke_at (X := []) (Y := s.ascii) (b := [shownAs b]) (i := 0) rfl (by
    rw [List.nil_append, h2]
    show 0 + 1 ≤ 17
    decide)
  rw [List.nil_append, List.nil_append] at ha
  have ha2 := poke_at (X := [shownAs b]) (Y := s.ascii.drop 1) (b := [0]) (i := 1) rfl (by
    rw [List.length_append, List.length_drop, h2]
    show 1 + 1 ≤ 1 + 16
    decide)
  have hsplit : hex04 i ++ ([32, 0] : Bytes) ++ s.hex.drop (hex04 i ++ ([32, 0] : Bytes)).length =
      off5 i ++ (hex04 i ++ ([32, 0] : Bytes) ++ s.hex.drop (hex04 i ++ ([32, 0] : Bytes)).length).drop 5 := by
    conv => lhs; rw [← List.take_append_drop 5 (hex04 i ++ ([32, 0] : Bytes) ++ s.hex.drop (hex04 i ++ ([32, 0] : Bytes)).length)]
    congr 1
    unfold off5
    rw [List.append_assoc, show ([32, 0] : Bytes) = [32] ++ [0] from rfl, List.append_assoc, ← List.append_assoc (hex04 i),
      List.take_append_of_le_length]
    rw [List.length_append]
    simp only [List.length_cons, List.length_nil]
    omega
  have hlen : (hex04 i ++ ([32, 0] : Bytes) ++ s.hex.drop (hex04 i ++ ([32, 0] : Bytes)).length).length = 54 := by
    simp only [List.length_append, List.length_drop, h1, List.length_cons, List.length_nil]
    omega
  have hp2 := poke_at (X := off5 i) (Y := (hex04 i ++ ([32, 0] : Bytes) ++ s.hex.drop (hex04 i ++ ([32, 0] : Bytes)).length).drop 5) (b := cell b ++ [0])
    (i := 5) (off5_length hi) (by
      rw [← hsplit, hlen]
      show 5 + 4 ≤ 54
      decide)
  rw [← hsplit] at hp2
  generalize hex04 i ++ ([32, 0] : Bytes) ++ s.hex.drop (hex04 i ++ ([32, 0] : Bytes)).length = H at hp hp2 hlen
  refine ⟨_, _, hp, _, hp2, _, ha, ha2, fun l => ⟨⟨(H.drop 5).drop 4, ?_⟩, ?_, ⟨(s.ascii.drop 1).drop 1, ?_⟩, ?_⟩⟩
  · show _ = off5 i ++ (cell b ++ []) ++ 0 :: _
    rw [List.append_nil, List.append_assoc, List.append_assoc]
    rfl
  · show (off5 i ++ (cell b ++ [0] ++ List.drop 4 _)).length = 54
    rw [List.length_append, List.length_append, List.length_drop, List.length_drop, hlen, off5_length hi]
    rfl
  · rfl
  · show ([shownAs b] ++ ([0] ++ List.drop 1 _)).length = 17
    rw [List.length_append, List.length_append, List.length_drop, List.length_drop, h2]
    rfl

/-- The next byte of a line -/
theorem cell_next {s : HexState} {i : Nat} {c : Bytes} (hi : i < 2 ^ 32) (hs : OnLine s i c) (hc : c.length < 16) (b : Byte) :
    ∃ h a' a, poke s.hex (5 + c.length * 3) (cell b ++ [0]) = .ok h ∧ poke s.ascii c.length [shownAs b] = .ok a' ∧
      poke a' (c.length + 1) [0] = .ok a ∧ ∀ l, OnLine ⟨h, a, l⟩ i (c ++ [b]) := by
  obtain ⟨hr, e1⟩ := hs.hex
  obtain ⟨ar, e2⟩ := hs.ascii
  have l1 := hs.hexLen
  have l2 := hs.asciiLen
  have lx : (off5 i ++ c.flatMap cell).length = 5 + c.length * 3 := by
    rw [List.length_append, off5_length hi, cells_length]
    omega
  have lm : (c.map shownAs).length = c.length := List.length_map _
  rw [e1] at l1
  rw [e2] at l2
  have hp := poke_at (Y := 0 :: hr) (b := cell b ++ [0]) lx (by rw [l1]; show 5 + c.length * 3 + 4 ≤ 54; omega)
  have ha := poke_at (Y := 0 :: ar) (b := [shownAs b]) lm (by rw [l2]; show c.length + 1 ≤ 17; omega)
  have lx2 := l2
  rw [List.length_append, List.length_cons, lm] at lx2
  have ha2 := poke_at (X := c.map shownAs ++ [shownAs b]) (Y := (0 :: ar).drop 1) (b := [0]) (i := c.length + 1)
    (by rw [List.length_append, lm]; rfl) (by
      rw [List.length_append, List.length_append, lm, List.length_drop, List.length_cons]
      simp only [List.length_cons, List.length_nil]
      omega)
  rw [List.append_assoc (c.map shownAs)] at ha2
  rw [e1, e2]
  refine ⟨_, _, _, hp, ha, ha2, fun l => ⟨⟨(0 :: hr).drop 4, ?_⟩, ?_, ⟨((0 :: ar).drop 1).drop 1, ?_⟩, ?_⟩⟩
  · show _ = off5 i ++ (c ++ [b]).flatMap cell ++ 0 :: _
    rw [List.flatMap_append, List.flatMap_cons, List.flatMap_nil, List.append_nil, ← List.append_assoc (off5 i), List.append_assoc (cell b),
      ← List.append_assoc _ (cell b)]
    rfl
  · rw [List.length_append, lx, List.length_append, List.length_drop, List.length_cons]
    rw [List.length_append, lx, List.length_cons] at l1
    show 5 + c.length * 3 + (4 + (hr.length + 1 - 4)) = 54
    omega
  · rw [List.map_append]
    rfl
  · show (_ ++ ([0] ++ _)).length = 17
    rw [List.length_append, List.length_append, List.length_append, lm, List.length_drop, List.length_drop, List.length_cons]
    simp only [List.length_cons, List.length_nil]
    omega

/-- A complete line is printed. -/
theorem print_line {s : HexState} {i : Nat} {c : Bytes} (hs : OnLine s i c) (hc : c.length = 16) :
    hexPrint s = .ok { s with lines := s.lines ++ [lineOf i c] } := by
  obtain ⟨hr, e1⟩ := hs.hex
  obtain ⟨ar, e2⟩ := hs.ascii
  unfold hexPrint
  rw [e1, stringIn_eq (fun x hx => by
    rcases List.mem_append.mp hx with h | h
    · exact off5_ne i x h
    · exact cells_ne c x h)]
  simp only
  rw [e2, stringIn_eq (shown_ne c)]
  simp only
  unfold lineOf
  rw [hc, Nat.sub_self, Nat.mul_zero, List.replicate_zero, List.append_nil]

/-- So far: `full` was printed, `c` is being written. -/
structure Dumping (s : HexState) (q : Nat) (full c : Bytes) : Prop where
  len : full.length = 16 * q
  pos : 0 < c.length
  le : c.length ≤ 16
  line : OnLine s (16 * q) c
  lines : s.lines = (List.range q).map fun j => lineOf (16 * j) ((full.drop (16 * j)).take 16)

theorem dump_start {hex ascii : Bytes} (h1 : hex.length = 54) (h2 : ascii.length = 17) (b : Byte) :
    ∃ s, hexStep ⟨hex, ascii, []⟩ 0 b = .ok s ∧ Dumping s 0 [] [b] := by
  obtain ⟨h, a, e1, h', e2, a', e3, e4, hl⟩ := cell_first (s := ⟨hex, ascii, []⟩) (i := 0) (by decide) h1 h2 b
  refine ⟨⟨h', a, []⟩, ?_, rfl, Nat.zero_lt_one, (by show 1 ≤ 16; decide), hl [], rfl⟩
  unfold hexStep hexStart
  rw [if_pos rfl, if_neg (by decide)]
  simp only
  rw [e1]
  simp only
  rw [show 5 + 0 % 16 * 3 = 5 from rfl, show (32 :: hex02 b ++ [0] : Bytes) = cell b ++ [0] from rfl, e2]
  simp only
  rw [show 0 % 16 = 0 from rfl, show (if b.toNat < 0x20 ∨ b.toNat > 0x7e then (46 : Byte) else b) = shownAs b from rfl, e3]
  simp only
  rw [e4]

theorem lines_more {full c : Bytes} {q : Nat} (h : full.length = 16 * q) :
    (List.range q).map (fun j => lineOf (16 * j) ((full.drop (16 * j)).take 16)) =
    (List.range q).map (fun j => lineOf (16 * j) (((full ++ c).drop (16 * j)).take 16)) := by
  apply List.map_congr_left
  intro j hj
  have hj := List.mem_range.mp hj
  rw [List.drop_append_of_le_length (by omega), List.take_append_of_le_length]
  rw [List.length_drop]
  omega

theorem dump_step {s : HexState} {q : Nat} {full c : Bytes} (hs : Dumping s q full c) (b : Byte) (hlt : 16 * q + c.length < 2 ^ 32) :
    ∃ s' q' full' c', hexStep s (16 * q + c.length) b = .ok s' ∧ Dumping s' q' full' c' ∧ full' ++ c' = full ++ c ++ [b] := by
  by_cases hc : c.length = 16
  · -- the next line
    have hp := print_line hs.line hc
    obtain ⟨h, a, e1, h', e2, a', e3, e4, hl⟩ := cell_first (s := { s with lines := s.lines ++ [lineOf (16 * q) c] })
      (i := 16 * q + c.length) hlt hs.line.hexLen hs.line.asciiLen b
    have hq : 16 * q + c.length = 16 * (q + 1) := by omega
    refine ⟨⟨h', a, s.lines ++ [lineOf (16 * q) c]⟩, q + 1, full ++ c, [b], ?_, ⟨?_, Nat.zero_lt_one, (by show 1 ≤ 16; decide), ?_, ?_⟩, rfl⟩
    · unfold hexStep hexStart
      have hm : (16 * q + c.length) % 16 = 0 := by omega
      rw [if_pos hm, if_pos (by omega), hp]
      simp only
      simp only at e1
      rw [e1]
      simp only
      rw [hm, show 5 + 0 * 3 = 5 from rfl, show (32 :: hex02 b ++ [0] : Bytes) = cell b ++ [0] from rfl, e2]
      simp only
      simp only at e3
      rw [show (if b.toNat < 0x20 ∨ b.toNat > 0x7e then (46 : Byte) else b) = shownAs b from rfl, e3]
      simp only
      rw [show 0 + 1 = 1 from rfl, e4]
    · rw [List.length_append, hs.len]
      omega
    · rw [← hq]
      exact hl _
    · simp only
      rw [hs.lines, List.range_succ, List.map_append, List.map_cons, List.map_nil, lines_more (c := c) hs.len]
      congr 3
      rw [List.drop_left' hs.len, List.take_of_length_le (by omega)]
  · have hle := hs.le
    have hpos := hs.pos
    obtain ⟨h, a', a, e1, e2, e3, hl⟩ := cell_next (by omega) hs.line (by omega) b
    refine ⟨⟨h, a, s.lines⟩, q, full, c ++ [b], ?_, ⟨hs.len, ?_, ?_, hl _, hs.lines⟩, by rw [List.append_assoc]⟩
    · unfold hexStep hexStart
      have hm : (16 * q + c.length) % 16 = c.length := by omega
      rw [if_neg (by omega)]
      simp only
      rw [hm, show (32 :: hex02 b ++ [0] : Bytes) = cell b ++ [0] from rfl, e1]
      simp only
      rw [show (if b.toNat < 0x20 ∨ b.toNat > 0x7e then (46 : Byte) else b) = shownAs b from rfl, e2]
      simp only
      rw [e3]
    · rw [List.length_append]
      simp only [List.length_cons, List.length_nil]
      omega
    · rw [List.length_append]
      simp only [List.length_cons, List.length_nil]
      omega

theorem dump_loop {bs : Bytes} {s : HexState} {q : Nat} {full c : Bytes} (hs : Dumping s q full c)
    (hlt : 16 * q + c.length + bs.length < 2 ^ 32) :
    ∃ s' q' full' c', hexLoop s (16 * q + c.length) bs = .ok s' ∧ Dumping s' q' full' c' ∧ full' ++ c' = full ++ c ++ bs := by
  induction bs generalizing s q full c with
  | nil => exact ⟨s, q, full, c, rfl, hs, (List.append_nil _).symm⟩
  | cons b bs ih =>
    rw [List.length_cons] at hlt
    obtain ⟨s1, q1, full1, c1, e1, hs1, e2⟩ := dump_step hs b (by omega)
    have hl := congrArg List.length e2
    simp only [List.length_append, List.length_cons, List.length_nil, hs1.len, hs.len] at hl
    obtain ⟨s2, q2, full2, c2, e3, hs2, e4⟩ := ih hs1 (by omega)
    refine ⟨s2, q2, full2, c2, ?_, hs2, ?_⟩
    · have hu : hexLoop s (16 * q + c.length) (b :: bs) = (match hexStep s (16 * q + c.length) b with
        | .error e => .error e
        | .ok s => hexLoop s (16 * q + c.length + 1) bs) := rfl
      rw [hu, e1]
      simp only
      rw [← hl]
      exact e3
    · rw [e4, e2, List.append_assoc, List.append_assoc, List.append_assoc]
      rfl

/-- The padding of the last line -/
theorem pad_line {k : Nat} {s : HexState} {i n p : Nat} {X rest : Bytes} (hX : X.length = 5 + 3 * (16 - p)) (hhex : s.hex = X ++ 0 :: rest)
    (hlen : s.hex.length = 54) (hp : p ≤ k) (hp16 : p < 16) (hn : n % 16 = (16 - p) % 16) :
    ∃ h rest', hexPad k s n = .ok { s with hex := h } ∧ h = X ++ List.replicate (3 * p) 32 ++ 0 :: rest' := by
  induction p generalizing k s n X rest with
  | zero =>
    refine ⟨s.hex, rest, ?_, by rw [Nat.mul_zero, List.replicate_zero, List.append_nil]; exact hhex⟩
    have h0 : ¬ n % 16 ≠ 0 := by omega
    cases k with
    | zero =>
      show (if n % 16 ≠ 0 then _ else _) = _
      rw [if_neg h0]
    | succ k =>
      show (if n % 16 ≠ 0 then _ else _) = _
      rw [if_neg h0]
  | succ p ih =>
    cases k with
    | zero => omega
    | succ k =>
      have h0 : n % 16 ≠ 0 := by omega
      have hu : hexPad (k + 1) s n = if n % 16 ≠ 0 then
        (match poke s.hex (5 + n % 16 * 3) [32, 32, 32, 0] with
        | .error e => .error e
        | .ok h => hexPad k { s with hex := h } (n + 1)) else .ok s := rfl
      rw [hhex] at hlen
      have hpk := poke_at (X := X) (Y := 0 :: rest) (b := [32, 32, 32, 0]) (i := 5 + n % 16 * 3) (by omega) (by
        rw [hlen]
        simp only [List.length_cons, List.length_nil]
        omega)
      rw [hu, if_pos h0, hhex, hpk]
      simp only
      have hl2 := hlen
      rw [List.length_append, List.length_cons] at hl2
      obtain ⟨h, rest', e1, e2⟩ := ih (k := k) (s := { s with hex := X ++ ([32, 32, 32, 0] ++ (0 :: rest).drop 4) }) (n := n + 1)
        (X := X ++ [32, 32, 32]) (rest := (0 :: rest).drop 4)
        (by rw [List.length_append]; simp only [List.length_cons, List.length_nil]; omega)
        (by simp only [List.append_assoc]; rfl)
        (by
          simp only [List.length_append, List.length_drop, List.length_cons, List.length_nil]
          omega) (by omega) (by omega) (by omega)
      refine ⟨h, rest', e1, ?_⟩
      rw [e2, List.append_assoc X]
      rw [show 3 * (p + 1) = 3 + 3 * p by omega, ← List.replicate_append_replicate]
      rfl

theorem dump_all {hex ascii data : Bytes} (h1 : hex.length = 54) (h2 : ascii.length = 17) (hne : data ≠ []) (hlt : data.length < 2 ^ 32) :
    hexdump hex ascii data = .ok ((List.range ((data.length + 15) / 16)).map fun j => lineOf (16 * j) ((data.drop (16 * j)).take 16)) := by
  cases data with
  | nil => exact absurd rfl hne
  | cons b bs =>
    obtain ⟨s0, e0, d0⟩ := dump_start h1 h2 b
    rw [List.length_cons] at hlt
    obtain ⟨s, q, full, c, e1, d1, e2⟩ := dump_loop (bs := bs) d0 (by simp only [List.length_cons, List.length_nil]; omega)
    have e2 : full ++ c = b :: bs := e2
    have hlen : (b :: bs).length = 16 * q + c.length := by
      rw [← e2, List.length_append, d1.len]
    have hpos := d1.pos
    have hle := d1.le
    obtain ⟨hr, g1⟩ := d1.line.hex
    obtain ⟨ar, g2⟩ := d1.line.ascii
    obtain ⟨h, rest', p1, p2⟩ := pad_line (k := 15) (s := s) (i := 0) (n := (b :: bs).length) (p := 16 - c.length)
      (X := off5 (16 * q) ++ c.flatMap cell) (rest := hr)
      (by
        rw [List.length_append, off5_length (by rw [List.length_cons] at hlen; omega), cells_length]
        omega) g1 d1.line.hexLen (by omega) (by omega) (by rw [hlen]; omega)
    unfold hexdump
    rw [if_neg (by simp), if_neg (by rw [List.length_cons]; omega)]
    have hloop : hexLoop ⟨hex, ascii, []⟩ 0 (b :: bs) = .ok s := by
      have hu : hexLoop ⟨hex, ascii, []⟩ 0 (b :: bs) = (match hexStep ⟨hex, ascii, []⟩ 0 b with
        | .error e => .error e
        | .ok s => hexLoop s (0 + 1) bs) := rfl
      rw [hu, e0]
      exact e1
    rw [hloop]
    simp only
    rw [p1]
    simp only
    unfold hexPrint
    simp only
    rw [p2, stringIn_eq (fun x hx => by
      rcases List.mem_append.mp hx with h | h
      · rcases List.mem_append.mp h with h | h
        · exact off5_ne _ x h
        · exact cells_ne c x h
      · rw [List.eq_of_mem_replicate h]
        decide)]
    simp only
    rw [g2, stringIn_eq (shown_ne c)]
    simp only
    have hq : ((b :: bs).length + 15) / 16 = q + 1 := by rw [hlen]; omega
    rw [hq, List.range_succ, List.map_append, List.map_cons, List.map_nil, d1.lines, ← e2, lines_more (c := c) d1.len]
    rw [List.drop_left' d1.len, List.take_of_length_le hle]
    rfl

theorem cells_text (c : Bytes) : HexCells c (c.flatMap cell) := by
  induction c with
  | nil => exact .nil
  | cons b c ih => exact .cons (hex02_text b) rfl ih

theorem line_spec {i : Nat} (hi : i < 65536) (c : Bytes) : DumpLine i c (lineOf i c) := by
  obtain ⟨t1, t2⟩ := hex04_text hi
  refine ⟨hex04 i, c.flatMap cell, t1, t2, cells_text c, ?_, List.length_map _, ?_⟩
  · show off5 i ++ _ ++ _ = _
    unfold off5
    rw [List.take_of_length_le]
    rw [List.length_append, t2]
    decide
  · intro k b x h1 h2
    have h3 : (c.map shownAs)[k]? = some x := h2
    rw [List.getElem?_map, h1] at h3
    cases h3
    show Shown b (shownAs b)
    unfold shownAs Shown
    split
    · exact .inr ⟨by omega, rfl⟩
    · exact .inl ⟨by omega, by omega, rfl⟩

end Loc
