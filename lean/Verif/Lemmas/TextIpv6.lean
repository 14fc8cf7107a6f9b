import Verif.Lemmas.Text
/-
`inet_pton6` accepts exactly the IPv6 addresses in text form.
-/
namespace Loc
open Loc.Spec

theorem hex_digits {t : CStr} {ds : List Nat} (h : t.map hexVal = ds.map some) (r tok : CStr) (out : List Byte) (colon : Option Nat) (n v : Nat)
    (hn : n ≤ 4) : pton6Loop (t ++ r) tok ⟨out, colon, n, v⟩ =
      if n + t.length ≤ 4 then pton6Loop r tok ⟨out, colon, n + t.length, more 16 v ds⟩ else none := by
  induction t generalizing ds n v with
  | nil =>
    cases ds with
    | nil => simp [more_nil, hn]
    | cons => simp at h
  | cons c t ih =>
    cases ds with
    | nil => simp at h
    | cons d ds =>
      simp only [List.map_cons, List.cons.injEq] at h
      rw [List.cons_append, pton6Loop, h.1]
      simp only [beq_iff_eq]
      by_cases h4 : n = 4
      · rw [if_pos h4, if_neg (by simp only [List.length_cons]; omega)]
      · rw [if_neg h4, ih h.2 (n + 1) _ (by omega)]
        simp only [List.length_cons, more_cons]
        rw [show n + 1 + t.length = n + (t.length + 1) by omega]

/-- The result for the octets read so far, and the position of `::` -/
def fin6 (out : List Byte) (colon : Option Nat) : Option (List Byte) :=
  match colon with
  | some k => if out.length = 16 then none else some (out.take k ++ List.replicate (16 - out.length) 0 ++ out.drop k)
  | none => if out.length = 16 then some out else none

/-- The rest of the parser at the beginning of a group -/
def rest6 (s : CStr) (out : List Byte) (colon : Option Nat) : Option (List Byte) :=
  (pton6Loop s s ⟨out, colon, 0, 0⟩).bind pton6Finish

theorem finish6 (out : List Byte) (colon : Option Nat) (v : Nat) : pton6Finish ⟨out, colon, 0, v⟩ = fin6 out colon := by
  unfold pton6Finish fin6
  cases colon <;> simp

theorem finish6_digits (out : List Byte) (colon : Option Nat) (n v : Nat) : pton6Finish ⟨out, colon, n + 1, v⟩ =
    if out.length ≤ 14 then fin6 (out ++ octets16 v) colon else none := by
  unfold pton6Finish fin6 Pton6.push octets16
  by_cases h : out.length ≤ 14
  · rw [if_pos h, if_neg (by simp only; omega)]
    cases colon <;> simp
  · rw [if_neg h, if_pos (by simp only; omega)]

theorem hextet_ne_nil {v : Nat} {s : CStr} (h : Hextet v s) : s ≠ [] := by
  obtain ⟨ds, h1, h2, -⟩ := h
  rintro rfl
  cases ds with
  | nil => exact h2 rfl
  | cons => simp at h1

/-- A group, up to the character that ends it -/
theorem rest6_hextet {v : Nat} {h : CStr} (hh : Hextet v h) (r tok : CStr) (out : List Byte) (colon : Option Nat) :
    ∃ n, pton6Loop (h ++ r) tok ⟨out, colon, 0, 0⟩ = pton6Loop r tok ⟨out, colon, n + 1, v⟩ := by
  have hne := hextet_ne_nil hh
  obtain ⟨ds, h1, h2, h3, h4⟩ := hh
  rw [List.map_congr_left (fun c _ => anyDigitOf_eq c)] at h1
  have hl := map_some_length h1
  have hpos : 0 < h.length := List.length_pos_iff.mpr hne
  refine ⟨h.length - 1, ?_⟩
  rw [hex_digits h1 r tok out colon 0 0 (by omega), if_pos (by omega), ← h4, show 0 + h.length = h.length - 1 + 1 by omega]
  rfl

theorem ipv4_first {s : CStr} {q : List Byte} (h : IPv4Text s q) : ∃ (t r : CStr) (ds : List Nat), s = t ++ 46 :: r ∧ t.map hexVal = ds.map some ∧ t.length ≤ 3 := by
  obtain ⟨a, b, c, d, sa, sb, sc, sd, na, nb, nc, nd, ha, hb, hc, hd, h1, h2⟩ := h
  have hl := numeral_length (m := 3) na (by omega) (by decide)
  obtain ⟨ds, k1, k2, k3, k4, k5⟩ := na
  refine ⟨sa, sb ++ 46 :: (sc ++ 46 :: sd), ds, by rw [h1]; simp, ?_, hl⟩
  clear k2 k3 k4 k5 h1 hl
  induction sa generalizing ds with
  | nil => exact k1
  | cons c s ih =>
    cases ds with
    | nil => simp at k1
    | cons d ds =>
      simp only [List.map_cons, List.cons.injEq] at k1 ⊢
      exact ⟨digitOf_hex k1.1, ih ds k1.2⟩

theorem ipv4_length {s : CStr} {q : List Byte} (h : IPv4Text s q) : q.length = 4 := by
  obtain ⟨a, b, c, d, sa, sb, sc, sd, na, nb, nc, nd, ha, hb, hc, hd, h1, h2⟩ := h
  rw [h2]
  rfl

/-- What the parser does at the beginning of a group -/
theorem rest6_step {s : CStr} {out l : List Byte} {colon : Option Nat} :
    rest6 s out colon = some l ↔
      (s = [] ∧ fin6 out colon = some l) ∨
      (∃ s', s = 58 :: s' ∧ colon = none ∧ rest6 s' out (some out.length) = some l) ∨
      (∃ v, Hextet v s ∧ out.length ≤ 14 ∧ fin6 (out ++ octets16 v) colon = some l) ∨
      (∃ q, IPv4Text s q ∧ out.length ≤ 12 ∧ fin6 (out ++ q) colon = some l) ∨
      (∃ h v s', Hextet v h ∧ s = h ++ 58 :: s' ∧ s' ≠ [] ∧ out.length ≤ 14 ∧ rest6 s' (out ++ octets16 v) colon = some l) := by
  constructor
  · intro h
    obtain ⟨t, r, ds, h1, h2, h3⟩ := split_run hexVal s
    have hl := map_some_length h2
    cases t with
    | nil =>
      rw [List.nil_append] at h1
      subst h1
      cases s with
      | nil =>
        rw [rest6, pton6Loop, Option.bind_some, finish6] at h
        exact .inl ⟨rfl, h⟩
      | cons c r =>
        rw [rest6, pton6Loop, h3 c r rfl] at h
        simp only [beq_iff_eq, ↓reduceIte] at h
        by_cases hc : c = 58
        · rw [if_pos hc] at h
          subst hc
          cases colon with
          | none => exact .inr (.inl ⟨r, rfl, rfl, h⟩)
          | some k => simp at h
        · rw [if_neg hc] at h
          exfalso
          cases hq : pton4 (c :: r) with
          | none =>
            rw [hq] at h
            split at h <;> simp at h
          | some q =>
            obtain ⟨t', r', ds', g1, g2, g3⟩ := ipv4_first (pton4_iff.mp hq)
            cases t' with
            | nil =>
              obtain ⟨a, b, c', d, sa, sb, sc, sd, na, -, -, -, -, -, -, -, k1, -⟩ := pton4_iff.mp hq
              have hne := numeral_ne_nil na
              obtain ⟨es, e1, e2, e3, -⟩ := na
              cases sa with
              | nil => exact hne rfl
              | cons x sa =>
                cases es with
                | nil => exact e3 rfl
                | cons e es =>
                  simp only [List.map_cons, List.cons.injEq, List.cons_append] at e1 k1
                  have := digitOf_hex e1.1
                  rw [← k1.1, h3 c r rfl] at this
                  cases this
            | cons x t' =>
              cases ds' with
              | nil => simp at g2
              | cons e es =>
                simp only [List.map_cons, List.cons.injEq, List.cons_append] at g2 g1
                have := g2.1
                rw [← g1.1, h3 c r rfl] at this
                cases this
    | cons c t =>
      have hh : (c :: t).length ≤ 4 → Hextet (more 16 0 ds) (c :: t) := by
        intro h4
        refine ⟨ds, ?_, ?_, by omega, rfl⟩
        · rw [List.map_congr_left (fun c _ => anyDigitOf_eq c)]
          exact h2
        · rintro rfl
          simp at h2
      rw [h1, rest6, hex_digits h2 r _ out colon 0 0 (by omega)] at h
      by_cases h4 : 0 + (c :: t).length ≤ 4
      · rw [if_pos h4] at h
        have hh := hh (by omega)
        cases r with
        | nil =>
          rw [pton6Loop, Option.bind_some, List.length_cons, ← Nat.add_assoc, finish6_digits] at h
          by_cases h5 : out.length ≤ 14
          · rw [if_pos h5] at h
            exact .inr (.inr (.inl ⟨_, by rw [h1, List.append_nil]; exact hh, h5, h⟩))
          · rw [if_neg h5] at h
            cases h
        | cons e r =>
          rw [pton6Loop, h3 e r rfl] at h
          simp only [beq_iff_eq] at h
          by_cases he : e = 58
          · rw [if_pos he, if_neg (by simp)] at h
            subst he
            cases r with
            | nil => simp at h
            | cons g r =>
              rw [if_neg (by simp)] at h
              by_cases h5 : out.length + 2 > 16
              · rw [if_pos h5] at h
                cases h
              · rw [if_neg h5] at h
                exact .inr (.inr (.inr (.inr ⟨c :: t, _, g :: r, hh, h1, by simp, by omega, h⟩)))
          · rw [if_neg he, ← h1] at h
            by_cases h6 : (e == 46 && decide (out.length + 4 ≤ 16)) = true
            · rw [if_pos h6] at h
              cases hq : pton4 s with
              | none =>
                rw [hq] at h
                simp at h
              | some q =>
                rw [hq] at h
                simp only [Option.bind_some, finish6] at h
                simp only [Bool.and_eq_true, decide_eq_true_eq] at h6
                exact .inr (.inr (.inr (.inl ⟨q, pton4_iff.mp hq, by omega, h⟩)))
            · rw [if_neg h6] at h
              cases h
      · rw [if_neg h4] at h
        cases h
  · rintro (⟨rfl, h⟩ | ⟨s', rfl, rfl, h⟩ | ⟨v, h1, h2, h3⟩ | ⟨q, h1, h2, h3⟩ | ⟨h, v, s', h1, rfl, h3, h4, h5⟩)
    · rw [rest6, pton6Loop, Option.bind_some, finish6, h]
    · rw [rest6, pton6Loop, show hexVal 58 = none from rfl]
      exact h
    · obtain ⟨n, hn⟩ := rest6_hextet h1 [] s out colon
      rw [List.append_nil] at hn
      rw [rest6, hn, pton6Loop, Option.bind_some, finish6_digits, if_pos h2, h3]
    · obtain ⟨t, r, ds, g1, g2, g3⟩ := ipv4_first h1
      have hq := pton4_iff.mpr h1
      have : pton6Loop s s ⟨out, colon, 0, 0⟩ = some ⟨out ++ q, colon, 0, more 16 0 ds⟩ := by
        conv => lhs; arg 1; rw [g1]
        rw [hex_digits g2 _ _ out colon 0 0 (by omega), if_pos (by omega), pton6Loop, show hexVal 46 = none from rfl]
        simp only [hq]
        rw [if_neg (by decide), if_pos (by simp; omega)]
      rw [rest6, this, Option.bind_some, finish6, h3]
    · obtain ⟨n, hn⟩ := rest6_hextet h1 (58 :: s') (h ++ 58 :: s') out colon
      rw [rest6, hn, pton6Loop, show hexVal 58 = none from rfl]
      cases s' with
      | nil => exact absurd rfl h3
      | cons c s' =>
        simp only [BEq.rfl, ↓reduceIte, List.isEmpty_cons, Bool.false_eq_true]
        rw [if_neg (by simp), if_neg (by omega)]
        exact h5

theorem groups_ne_nil {s : CStr} {l : List Byte} (h : Groups s l) : s ≠ [] := by
  cases h with
  | last h => exact hextet_ne_nil h
  | quad h =>
    obtain ⟨t, r, ds, g1, -⟩ := ipv4_first h
    rw [g1]
    simp
  | cons hh _ => simp

theorem groups_pos {s : CStr} {l : List Byte} (h : Groups s l) : 2 ≤ l.length := by
  cases h with
  | last h => simp [octets16]
  | quad h => rw [ipv4_length h]; decide
  | cons hh _ => simp [octets16]

/-- Groups up to the end -/
theorem rest6_groups {s : CStr} {l : List Byte} (h : Groups s l) : ∀ (out : List Byte) (colon : Option Nat) (x : List Byte),
    out.length + l.length ≤ 16 → fin6 (out ++ l) colon = some x → rest6 s out colon = some x := by
  induction h with
  | last h =>
    intro out colon x ho hx
    exact rest6_step.mpr (.inr (.inr (.inl ⟨_, h, by simp [octets16] at ho; omega, hx⟩)))
  | quad h =>
    intro out colon x ho hx
    have := ipv4_length h
    exact rest6_step.mpr (.inr (.inr (.inr (.inl ⟨_, h, by omega, hx⟩))))
  | cons hh hs ih =>
    intro out colon x ho hx
    rw [List.length_append, show (octets16 _).length = 2 from rfl] at ho
    refine rest6_step.mpr (.inr (.inr (.inr (.inr ⟨_, _, _, hh, rfl, groups_ne_nil hs, by omega, ?_⟩))))
    refine ih _ _ _ ?_ ?_
    · rw [List.length_append, show (octets16 _).length = 2 from rfl]
      omega
    · rw [List.append_assoc]
      exact hx

/-- Groups in front of `::` -/
theorem rest6_front {s : CStr} {f : List Byte} (h : Front s f) : ∀ (t : CStr) (out x : List Byte), out.length + f.length ≤ 16 →
    rest6 t (out ++ f) (some (out ++ f).length) = some x → rest6 (s ++ 58 :: t) out none = some x := by
  induction h with
  | nil =>
    intro t out x ho hx
    rw [List.append_nil] at hx
    exact rest6_step.mpr (.inr (.inl ⟨t, rfl, rfl, hx⟩))
  | cons hh hs ih =>
    intro t out x ho hx
    rw [List.length_append, show (octets16 _).length = 2 from rfl] at ho
    refine rest6_step.mpr (.inr (.inr (.inr (.inr ⟨_, _, _, hh, by rw [List.append_assoc]; rfl, by simp, by omega, ?_⟩))))
    refine ih _ _ _ ?_ ?_
    · rw [List.length_append, show (octets16 _).length = 2 from rfl]
      omega
    · rw [List.append_assoc]
      exact hx

/-- The parser after `::` -/
theorem rest6_back {k : Nat} : ∀ (m : Nat) (s : CStr) (out x : List Byte), s.length ≤ m → out.length ≤ 16 → rest6 s out (some k) = some x →
    ∃ b, ((s = [] ∧ b = []) ∨ Groups s b) ∧ out.length + b.length < 16 ∧ fin6 (out ++ b) (some k) = some x := by
  have hfin : ∀ {o x : List Byte}, o.length ≤ 16 → fin6 o (some k) = some x → o.length < 16 := by
    intro o x ho h
    unfold fin6 at h
    by_cases h' : o.length = 16
    · simp [h'] at h
    · omega
  intro m
  induction m with
  | zero =>
    intro s out x hm ho h
    have hs : s = [] := List.length_eq_zero_iff.mp (by omega)
    subst hs
    rw [rest6, pton6Loop, Option.bind_some, finish6] at h
    exact ⟨[], .inl ⟨rfl, rfl⟩, hfin ho h, by rw [List.append_nil]; exact h⟩
  | succ m ih =>
    intro s out x hm ho h
    rcases rest6_step.mp h with ⟨h1, h2⟩ | ⟨s', -, h2, -⟩ | ⟨v, h1, h2, h3⟩ | ⟨q, h1, h2, h3⟩ | ⟨g, v, s', h1, h2, h3, h4, h5⟩
    · exact ⟨[], .inl ⟨h1, rfl⟩, hfin ho h2, by rw [List.append_nil]; exact h2⟩
    · cases h2
    · refine ⟨octets16 v, .inr (.last h1), ?_, h3⟩
      have := hfin (o := out ++ octets16 v) (by rw [List.length_append, show (octets16 v).length = 2 from rfl]; omega) h3
      rwa [List.length_append] at this
    · refine ⟨q, .inr (.quad h1), ?_, h3⟩
      have h6 := ipv4_length h1
      have := hfin (o := out ++ q) (by rw [List.length_append]; omega) h3
      rwa [List.length_append] at this
    · have h6 : s'.length ≤ m := by
        rw [h2] at hm
        simp only [List.length_append, List.length_cons] at hm
        omega
      obtain ⟨b, b1, b2, b3⟩ := ih s' _ x h6 (by rw [List.length_append, show (octets16 v).length = 2 from rfl]; omega) h5
      rcases b1 with ⟨b1, -⟩ | b1
      · exact absurd b1 h3
      · refine ⟨octets16 v ++ b, .inr (by rw [h2]; exact .cons h1 b1), ?_, ?_⟩
        · rw [List.length_append] at b2 ⊢
          omega
        · rw [← List.append_assoc]
          exact b3

/-- The parser before `::` -/
theorem rest6_sound : ∀ (m : Nat) (s : CStr) (out x : List Byte), s ≠ [] → s.length ≤ m → out.length ≤ 16 → rest6 s out none = some x →
    (∃ b, Groups s b ∧ x = out ++ b ∧ x.length = 16) ∨
    (∃ f t fb b, s = f ++ 58 :: t ∧ Front f fb ∧ ((t = [] ∧ b = []) ∨ Groups t b) ∧ out.length + fb.length + b.length < 16 ∧
      x = out ++ fb ++ List.replicate (16 - (out.length + fb.length + b.length)) 0 ++ b) := by
  have hfin : ∀ {o x : List Byte}, fin6 o none = some x → x = o ∧ x.length = 16 := by
    intro o x h
    unfold fin6 at h
    by_cases h' : o.length = 16
    · simp only [h', ↓reduceIte, Option.some.injEq] at h
      exact ⟨h.symm, by rw [← h, h']⟩
    · simp [h'] at h
  intro m
  induction m with
  | zero =>
    intro s out x hne hm
    exact absurd (List.length_eq_zero_iff.mp (by omega)) hne
  | succ m ih =>
    intro s out x hne hm ho h
    rcases rest6_step.mp h with ⟨h1, h2⟩ | ⟨s', h1, -, h3⟩ | ⟨v, h1, h2, h3⟩ | ⟨q, h1, h2, h3⟩ | ⟨g, v, s', h1, h2, h3, h4, h5⟩
    · exact absurd h1 hne
    · right
      obtain ⟨b, b1, b2, b3⟩ := rest6_back s'.length s' out x (Nat.le_refl _) ho h3
      refine ⟨[], s', [], b, h1, .nil, b1, by simpa using b2, ?_⟩
      unfold fin6 at b3
      simp only [List.length_append] at b3
      rw [if_neg (by omega)] at b3
      rw [← Option.some.inj b3]
      simp
    · obtain ⟨e1, e2⟩ := hfin h3
      exact .inl ⟨_, .last h1, e1, e2⟩
    · obtain ⟨e1, e2⟩ := hfin h3
      exact .inl ⟨_, .quad h1, e1, e2⟩
    · have h6 : s'.length ≤ m := by
        rw [h2] at hm
        simp only [List.length_append, List.length_cons] at hm
        omega
      have hl2 : (octets16 v).length = 2 := rfl
      rcases ih s' (out ++ octets16 v) x h3 h6 (by rw [List.length_append]; omega) h5 with ⟨b, b1, b2, b3⟩ | ⟨f, t, fb, b, b1, b2, b3, b4, b5⟩
      · exact .inl ⟨_, by rw [h2]; exact .cons h1 b1, by rw [b2, List.append_assoc], b3⟩
      · right
        rw [List.length_append] at b4 b5
        refine ⟨g ++ 58 :: f, t, octets16 v ++ fb, b, ?_, .cons h1 b2, b3, ?_, ?_⟩
        · rw [h2, b1]
          simp
        · rw [List.length_append]
          omega
        · rw [b5, List.length_append, Nat.add_assoc out.length, List.append_assoc out]

theorem front_head {s : CStr} {f : List Byte} (h : Front s f) (hs : s ≠ []) : ∃ c r, s = c :: r ∧ c ≠ 58 := by
  cases h with
  | nil => exact absurd rfl hs
  | @cons g s' v l hh _ =>
    have hne := hextet_ne_nil hh
    obtain ⟨ds, h1, h2, -⟩ := hh
    cases g with
    | nil => exact absurd rfl hne
    | cons c g =>
      refine ⟨c, _, rfl, ?_⟩
      rintro rfl
      cases ds with
      | nil => exact h2 rfl
      | cons d ds =>
        simp only [List.map_cons, List.cons.injEq] at h1
        have := h1.1
        rw [anyDigitOf_eq] at this
        cases this

theorem front_nil {f : List Byte} (h : Front [] f) : f = [] := by
  generalize hx : ([] : CStr) = x at h
  cases h with
  | nil => rfl
  | cons => simp at hx

theorem groups_head {s : CStr} {l : List Byte} (h : Groups s l) : ∃ c r, s = c :: r ∧ c ≠ 58 := by
  have key : ∀ {v : Nat} {g : CStr}, Hextet v g → ∃ c r, g = c :: r ∧ c ≠ 58 := by
    intro v g hh
    obtain ⟨c, r, h1, h2⟩ := front_head (.cons hh .nil) (by simp)
    have hne := hextet_ne_nil hh
    cases g with
    | nil => exact absurd rfl hne
    | cons x g =>
      simp only [List.cons_append, List.cons.injEq] at h1
      exact ⟨x, g, rfl, by rw [h1.1]; exact h2⟩
  cases h with
  | last h => exact key h
  | quad h =>
    obtain ⟨a, b, c, d, sa, sb, sc, sd, na, -, -, -, -, -, -, -, k1, -⟩ := h
    have hne := numeral_ne_nil na
    obtain ⟨es, e1, e2, e3, -⟩ := na
    cases sa with
    | nil => exact absurd rfl hne
    | cons x sa =>
      cases es with
      | nil => exact absurd rfl e3
      | cons e es =>
        simp only [List.map_cons, List.cons.injEq] at e1
        refine ⟨x, _, by rw [k1]; rfl, ?_⟩
        rintro rfl
        have := e1.1
        revert this
        rw [show digitOf 58 = none from by decide +kernel]
        simp
  | cons hh _ =>
    obtain ⟨c, r, h1, h2⟩ := key hh
    exact ⟨c, _, by rw [h1]; rfl, h2⟩

/-- `inet_pton6` reads exactly the IPv6 addresses in text form. -/
theorem pton6_iff {s : CStr} {l : List Byte} : pton6 s = some l ↔ IPv6Text s l := by
  constructor
  · intro h
    unfold pton6 at h
    cases s with
    | nil => cases h
    | cons c t =>
      simp only at h
      by_cases hc : c = 58
      · rw [if_pos (by simpa using hc)] at h
        subst hc
        cases t with
        | nil => cases h
        | cons d t =>
          simp only at h
          by_cases hd : d = 58
          · rw [if_pos (by simpa using hd)] at h
            subst hd
            rcases rest6_sound _ (58 :: t) [] l (by simp) (Nat.le_refl _) (by simp) h with ⟨b, b1, b2, b3⟩ | ⟨f, t', fb, b, b1, b2, b3, b4, b5⟩
            · obtain ⟨c, r, e1, e2⟩ := groups_head b1
              cases e1
              exact absurd rfl e2
            · by_cases hf : f = []
              · subst hf
                have hfb := front_nil b2
                subst hfb
                rw [List.nil_append, List.cons.injEq] at b1
                rw [b1.2]
                have := IPv6Text.short (s := []) (t := t') (f := []) (b := b) .nil b3 (by simpa using b4)
                rw [b5]
                simpa using this
              · obtain ⟨c, r, e1, e2⟩ := front_head b2 hf
                rw [e1] at b1
                simp only [List.cons_append, List.cons.injEq] at b1
                exact absurd b1.1.symm e2
          · rw [if_neg (by simpa using hd)] at h
            cases h
      · rw [if_neg (by simpa using hc)] at h
        rcases rest6_sound _ (c :: t) [] l (by simp) (Nat.le_refl _) (by simp) h with ⟨b, b1, b2, b3⟩ | ⟨f, t', fb, b, b1, b2, b3, b4, b5⟩
        · rw [List.nil_append] at b2
          rw [b2] at b3 ⊢
          exact .full b1 b3
        · have hf : f ≠ [] := by
            rintro rfl
            rw [List.nil_append, List.cons.injEq] at b1
            exact hc b1.1
          have := IPv6Text.short (s := f) (t := t') b2 b3 (by simpa using b4)
          rw [if_neg hf] at this
          rw [b1, b5]
          simpa using this
  · intro h
    cases h with
    | full h hl =>
      obtain ⟨c, r, e1, e2⟩ := groups_head h
      have := rest6_groups h [] none l (by simp [hl]) (by simp [fin6, hl])
      rw [e1] at this ⊢
      unfold pton6
      simp only
      rw [if_neg (by simpa using e2)]
      exact this
    | @short s t f b hf hb hl =>
      have hback : rest6 t f (some f.length) = some (f ++ List.replicate (16 - (f.length + b.length)) 0 ++ b) := by
        have hfin : fin6 (f ++ b) (some f.length) = some (f ++ List.replicate (16 - (f.length + b.length)) 0 ++ b) := by
          unfold fin6
          simp only [List.length_append]
          rw [if_neg (by omega)]
          simp
        rcases hb with ⟨rfl, rfl⟩ | hb
        · rw [List.append_nil] at hfin
          exact rest6_step.mpr (.inl ⟨rfl, hfin⟩)
        · exact rest6_groups hb f _ _ (by omega) hfin
      have hfront : rest6 (s ++ 58 :: t) [] none = some (f ++ List.replicate (16 - (f.length + b.length)) 0 ++ b) :=
        rest6_front hf t [] _ (by rw [List.length_nil]; omega) (by rw [List.nil_append]; exact hback)
      by_cases hs : s = []
      · subst hs
        rw [if_pos rfl]
        unfold pton6
        simp only [List.cons_append, List.nil_append]
        exact hfront
      · obtain ⟨c, r, e1, e2⟩ := front_head hf hs
        rw [if_neg hs]
        rw [e1] at hfront ⊢
        unfold pton6
        simp only [List.cons_append]
        rw [if_neg (by simpa using e2)]
        exact hfront

end Loc
