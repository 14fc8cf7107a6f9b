import Verif.Model.Dates
import Verif.Spec.Dates
/-
Lemmas about dates: the calendar of the model and that of the specification, and reading what is written.
-/
namespace Loc
open Spec

theorem isLeap_iff (y : Nat) : isLeap y = true ↔ LeapYear y := by
  unfold isLeap LeapYear
  simp only [Bool.and_eq_true, Bool.or_eq_true, decide_eq_true_eq]
  omega

/-- The days of the months before month `m` (from 0) -/
def before (y m : Nat) : Nat := ((monthLens y).take m).sum

theorem before_succ (y m : Nat) (h1 : 1 ≤ m) (h2 : m ≤ 12) : before y m = before y (m - 1) + monthLength y m := by
  have h : m = 1 ∨ m = 2 ∨ m = 3 ∨ m = 4 ∨ m = 5 ∨ m = 6 ∨ m = 7 ∨ m = 8 ∨ m = 9 ∨ m = 10 ∨ m = 11 ∨ m = 12 := by omega
  have hl : (if isLeap y then 29 else 28) = if LeapYear y then 29 else 28 := by
    by_cases hy : LeapYear y
    · rw [if_pos hy, if_pos ((isLeap_iff y).mpr hy)]
    · rw [if_neg hy, if_neg (fun h => hy ((isLeap_iff y).mp h))]
  unfold before monthLens monthLength
  rw [hl]
  rcases h with rfl | rfl | rfl | rfl | rfl | rfl | rfl | rfl | rfl | rfl | rfl | rfl <;> simp <;> omega

theorem before_12 (y : Nat) : before y 12 = if LeapYear y then 366 else 365 := by
  unfold before monthLens
  by_cases hy : LeapYear y
  · rw [if_pos hy, if_pos ((isLeap_iff y).mpr hy)]
    rfl
  · rw [if_neg hy, if_neg (fun h => hy ((isLeap_iff y).mp h))]
    rfl

theorem before_mono (y : Nat) {m m' : Nat} (h : m ≤ m') (h' : m' ≤ 12) : before y m ≤ before y m' := by
  induction m' with
  | zero =>
    rw [show m = 0 by omega]
    exact Nat.le_refl _
  | succ k ih =>
    by_cases he : m = k + 1
    · rw [he]
      exact Nat.le_refl _
    · have := ih (by omega) (by omega)
      have hs := before_succ y (k + 1) (by omega) h'
      rw [Nat.add_sub_cancel] at hs
      omega

theorem yearStart_succ (y : Nat) : yearStart (y + 1) = yearStart y + ((if LeapYear y then 366 else 365 : Nat) : Int) := by
  unfold yearStart
  by_cases hy : LeapYear y
  · rw [if_pos hy]
    unfold LeapYear at hy
    omega
  · rw [if_neg hy]
    unfold LeapYear at hy
    omega

theorem yearStart_mono {y z : Nat} (h : y ≤ z) : yearStart y ≤ yearStart z := by
  induction z with
  | zero =>
    rw [show y = 0 by omega]
    exact Int.le_refl _
  | succ k ih =>
    by_cases he : y = k + 1
    · rw [he]
      exact Int.le_refl _
    · have := ih (by omega)
      rw [yearStart_succ]
      omega

/-- The number of a date -/
def dayNumber (d : Date) : Int := yearStart d.year + before d.year (d.month - 1) + ((d.day : Int) - 1)

/-- The date exists. -/
structure ValidDate (d : Date) : Prop where
  m1 : 1 ≤ d.month
  m2 : d.month ≤ 12
  d1 : 1 ≤ d.day
  d2 : d.day ≤ monthLength d.year d.month

theorem monthLength_pos (y m : Nat) : 28 ≤ monthLength y m ∧ monthLength y m ≤ 31 := by
  unfold monthLength
  split
  · split <;> omega
  · split <;> omega

theorem nextDay_valid {d : Date} (h : ValidDate d) : ValidDate (nextDay d) ∧ dayNumber (nextDay d) = dayNumber d + 1 := by
  obtain ⟨h1, h2, h3, h4⟩ := h
  unfold nextDay
  by_cases hd : d.day < monthLength d.year d.month
  · rw [if_pos hd]
    refine ⟨⟨h1, h2, Nat.le_add_left 1 d.day, hd⟩, ?_⟩
    unfold dayNumber
    simp only
    omega
  · rw [if_neg hd]
    have hs := before_succ d.year d.month h1 h2
    by_cases hm : d.month < 12
    · rw [if_pos hm]
      refine ⟨⟨Nat.le_add_left 1 _, hm, Nat.le_refl 1, ?_⟩, ?_⟩
      · exact Nat.le_trans (show 1 ≤ 28 by decide) (monthLength_pos _ _).1
      · unfold dayNumber
        simp only [Nat.add_sub_cancel]
        rw [hs]
        omega
    · rw [if_neg hm]
      refine ⟨⟨Nat.le_refl 1, show 1 ≤ 12 by decide, Nat.le_refl 1, ?_⟩, ?_⟩
      · exact Nat.le_trans (show 1 ≤ 28 by decide) (monthLength_pos _ _).1
      · unfold dayNumber
        simp only [Nat.sub_self]
        have hm' : d.month = 12 := by omega
        rw [hm'] at hs hd h4 ⊢
        rw [before_12] at hs
        rw [yearStart_succ]
        have : before (d.year + 1) 0 = 0 := rfl
        rw [this]
        omega

theorem dateOfDay_valid : ∀ n, ValidDate (dateOfDay n) ∧ dayNumber (dateOfDay n) = n
  | 0 => ⟨⟨by decide, by decide, by decide, by decide⟩, by decide⟩
  | n + 1 => by
    obtain ⟨h1, h2⟩ := dateOfDay_valid n
    obtain ⟨h3, h4⟩ := nextDay_valid h1
    refine ⟨h3, ?_⟩
    show dayNumber (nextDay (dateOfDay n)) = _
    rw [h4, h2]
    omega

theorem dayNumber_year {d : Date} (h : ValidDate d) : yearStart d.year ≤ dayNumber d ∧ dayNumber d < yearStart (d.year + 1) := by
  obtain ⟨h1, h2, h3, h4⟩ := h
  have hs := before_succ d.year d.month h1 h2
  have hm := before_mono d.year (m := d.month) (m' := 12) h2 (Nat.le_refl _)
  rw [before_12] at hm
  rw [yearStart_succ]
  unfold dayNumber
  omega

theorem dayNumber_inj {a b : Date} (ha : ValidDate a) (hb : ValidDate b) (h : dayNumber a = dayNumber b) : a = b := by
  have ya := dayNumber_year ha
  have yb := dayNumber_year hb
  have hy : a.year = b.year := by
    rcases Nat.lt_trichotomy a.year b.year with hl | he | hl
    · have := yearStart_mono (y := a.year + 1) (z := b.year) hl
      omega
    · exact he
    · have := yearStart_mono (y := b.year + 1) (z := a.year) hl
      omega
  obtain ⟨a1, a2, a3, a4⟩ := ha
  obtain ⟨b1, b2, b3, b4⟩ := hb
  unfold dayNumber at h
  rw [hy] at h a4
  have sa := before_succ b.year a.month a1 a2
  have sb := before_succ b.year b.month b1 b2
  have hm : a.month = b.month := by
    rcases Nat.lt_trichotomy a.month b.month with hl | he | hl
    · have := before_mono b.year (m := a.month) (m' := b.month - 1) (by omega) (by omega)
      omega
    · exact he
    · have := before_mono b.year (m := b.month) (m' := a.month - 1) (by omega) (by omega)
      omega
  have hd : a.day = b.day := by
    rw [hm] at h
    omega
  cases a
  cases b
  simp only at hy hm hd
  rw [hy, hm, hd]

/-! ## gmtime -/

theorem offYear_spec : ∀ (fuel days y : Nat), days ≤ fuel →
    (offYear fuel days y).2 < (if LeapYear (offYear fuel days y).1 then 366 else 365) ∧
    yearStart (offYear fuel days y).1 + ((offYear fuel days y).2 : Int) = yearStart y + days
  | 0, days, y, h => by
    rw [show days = 0 by omega]
    show 0 < (if LeapYear y then 366 else 365) ∧ _
    exact ⟨by split <;> decide, rfl⟩
  | fuel + 1, days, y, h => by
    have hlen : (if isLeap y = true then 366 else 365) = if LeapYear y then 366 else 365 := by
      by_cases hy : LeapYear y
      · rw [if_pos hy, if_pos ((isLeap_iff y).mpr hy)]
      · rw [if_neg hy, if_neg (fun h => hy ((isLeap_iff y).mp h))]
    unfold offYear
    simp only
    rw [hlen]
    by_cases hd : days < if LeapYear y then 366 else 365
    · rw [if_pos hd]
      exact ⟨hd, rfl⟩
    · rw [if_neg hd]
      have hp : 0 < (if LeapYear y then 366 else 365) := by split <;> decide
      obtain ⟨h1, h2⟩ := offYear_spec fuel (days - if LeapYear y then 366 else 365) (y + 1) (by omega)
      refine ⟨h1, ?_⟩
      rw [h2, yearStart_succ]
      omega

theorem offMonth_spec : ∀ (lens : List Nat) (days : Nat), days < lens.sum →
    (offMonth lens days).1 < lens.length ∧ (lens.take (offMonth lens days).1).sum + (offMonth lens days).2 = days ∧
    days < (lens.take ((offMonth lens days).1 + 1)).sum
  | [], days, h => by simp at h
  | len :: lens, days, h => by
    unfold offMonth
    by_cases hd : days < len
    · rw [if_pos hd]
      simp
      exact hd
    · rw [if_neg hd]
      rw [List.sum_cons] at h
      obtain ⟨h1, h2, h3⟩ := offMonth_spec lens (days - len) (by omega)
      simp only [List.length_cons, List.take_succ_cons, List.sum_cons] at h3 ⊢
      exact ⟨by omega, by omega, by omega⟩

/-- The date of `gmtime` -/
def tmDate (tm : Tm) : Date := ⟨tm.year, tm.mon + 1, tm.mday⟩

theorem gmtime_date (t : Nat) : tmDate (gmtime t) = dateOfDay (t / 86400) := by
  obtain ⟨h1, h2⟩ := dateOfDay_valid (t / 86400)
  obtain ⟨y1, y2⟩ := offYear_spec (t / 86400) (t / 86400) 1970 (Nat.le_refl _)
  have hy0 : yearStart 1970 = 0 := by decide
  generalize hy : offYear (t / 86400) (t / 86400) 1970 = y at y1 y2
  have hsum : before y.1 12 = (monthLens y.1).sum := rfl
  rw [← before_12, hsum] at y1
  obtain ⟨m1, m2, m3⟩ := offMonth_spec _ _ y1
  generalize hm : offMonth (monthLens y.1) y.2 = m at m1 m2 m3
  have hl : (monthLens y.1).length = 12 := rfl
  rw [hl] at m1
  have hg : tmDate (gmtime t) = ⟨y.1, m.1 + 1, m.2 + 1⟩ := by
    unfold tmDate gmtime
    simp only
    rw [hy, hm]
  rw [hg]
  have hs := before_succ y.1 (m.1 + 1) (by omega) (by omega)
  rw [Nat.add_sub_cancel] at hs
  have hb1 : before y.1 m.1 + m.2 = y.2 := m2
  have hb2 : y.2 < before y.1 (m.1 + 1) := m3
  refine dayNumber_inj ⟨Nat.le_add_left 1 _, by show m.1 + 1 ≤ 12; omega, Nat.le_add_left 1 _, by show m.2 + 1 ≤ monthLength y.1 (m.1 + 1); omega⟩ h1 ?_
  rw [h2]
  unfold dayNumber
  simp only [Nat.add_sub_cancel]
  omega

theorem weekday_eq : ∀ n, weekday n = (4 + n) % 7
  | 0 => rfl
  | n + 1 => by
    show (weekday n + 1) % 7 = _
    rw [weekday_eq n]
    omega

theorem timegm_date (tm : Tm) : timegm tm = dayNumber (tmDate tm) * 86400 + tm.hour * 3600 + tm.min * 60 + tm.sec := rfl

theorem timegm_gmtime (t : Nat) : timegm (gmtime t) = t := by
  rw [timegm_date, gmtime_date, (dateOfDay_valid _).2]
  show ((t / 86400 : Nat) : Int) * 86400 + ((t % 86400 / 3600 : Nat) : Int) * 3600 + ((t % 86400 % 3600 / 60 : Nat) : Int) * 60 + ((t % 86400 % 60 : Nat) : Int) = t
  omega

/-! ## Writing -/

theorem digitChar_eq {d : Nat} (h : d < 10) : digitChar d = BitVec.ofNat 8 (48 + d) := by
  unfold digitChar
  rw [if_pos h]

theorem twoDigits_eq {n : Nat} : twoDigits n = digits 2 n := by
  unfold twoDigits
  rw [digitChar_eq (Nat.mod_lt _ (by decide)), digitChar_eq (Nat.mod_lt _ (by decide))]
  rfl

theorem decStr_four {y : Nat} (h1 : 1000 ≤ y) (h2 : y < 10000) : decStr y = digits 4 y := by
  unfold decStr
  simp only [numLoop]
  rw [if_neg (by omega), if_neg (by omega), if_neg (by omega), if_pos (by omega)]
  rw [digitChar_eq (by omega), digitChar_eq (Nat.mod_lt _ (by decide)), digitChar_eq (Nat.mod_lt _ (by decide)), digitChar_eq (Nat.mod_lt _ (by decide))]
  simp only [digits, List.nil_append]
  rw [show y / 10 / 10 / 10 % 10 = y / 10 / 10 / 10 by omega]

theorem abbr_day {w : Nat} (h : w < 7) : abbr dayNames w = dayName w := by
  have : w = 0 ∨ w = 1 ∨ w = 2 ∨ w = 3 ∨ w = 4 ∨ w = 5 ∨ w = 6 := by omega
  rcases this with rfl | rfl | rfl | rfl | rfl | rfl | rfl <;> rfl

theorem abbr_month {m : Nat} (h : m < 12) : abbr monthNames m = monthName (m + 1) := by
  have : m = 0 ∨ m = 1 ∨ m = 2 ∨ m = 3 ∨ m = 4 ∨ m = 5 ∨ m = 6 ∨ m = 7 ∨ m = 8 ∨ m = 9 ∨ m = 10 ∨ m = 11 := by omega
  rcases this with rfl | rfl | rfl | rfl | rfl | rfl | rfl | rfl | rfl | rfl | rfl | rfl <;> rfl

theorem gmtime_year {t : Nat} (h : t < 253402300800) : 1970 ≤ (gmtime t).year ∧ (gmtime t).year < 10000 := by
  have hd := gmtime_date t
  have hy : (gmtime t).year = (dateOfDay (t / 86400)).year := by rw [← hd]; rfl
  obtain ⟨h1, h2⟩ := dateOfDay_valid (t / 86400)
  have h3 := dayNumber_year h1
  rw [← hy] at h3
  have e1 : yearStart 10000 = 2932897 := by decide
  have e0 : yearStart 1970 = 0 := by decide
  constructor
  · refine Nat.le_of_not_lt fun hl => ?_
    have := yearStart_mono (y := (gmtime t).year + 1) (z := 1970) hl
    omega
  · refine Nat.lt_of_not_le fun hl => ?_
    have := yearStart_mono hl
    omega

/-! ## Reading -/

theorem strpDigit_char {d : Nat} (h : d < 10) : strpDigit (digitChar d) = some d ∧ digitChar d ≠ 32 ∧ isSpace (digitChar d) = false := by
  have : d = 0 ∨ d = 1 ∨ d = 2 ∨ d = 3 ∨ d = 4 ∨ d = 5 ∨ d = 6 ∨ d = 7 ∨ d = 8 ∨ d = 9 := by omega
  rcases this with rfl | rfl | rfl | rfl | rfl | rfl | rfl | rfl | rfl | rfl <;> decide

theorem moreDigits_step {hi val d : Nat} {c : Byte} (h : val * 10 ≤ hi) (hc : strpDigit c = some d) (n : Nat) (s : CStr) :
    moreDigits hi (n + 1) val (c :: s) = moreDigits hi n (val * 10 + d) s := by
  rw [moreDigits, if_pos h, hc]

theorem strpNumber_two {lo hi n : Nat} (h1 : lo ≤ n) (h2 : n ≤ hi) (h3 : n < 100) (s : CStr) :
    strpNumber lo hi 2 (twoDigits n ++ s) = some (n, s) := by
  obtain ⟨a1, a2, -⟩ := strpDigit_char (d := n / 10 % 10) (by omega)
  obtain ⟨b1, -, -⟩ := strpDigit_char (d := n % 10) (by omega)
  show strpNumber lo hi 2 (digitChar (n / 10 % 10) :: digitChar (n % 10) :: s) = _
  unfold strpNumber
  rw [if_neg a2, a1]
  have hm : moreDigits hi (2 - 1) (n / 10 % 10) (digitChar (n % 10) :: s) = (n, s) := by
    rw [moreDigits_step (by omega) b1, moreDigits, show n / 10 % 10 * 10 + n % 10 = n by omega]
  simp only
  rw [hm, if_neg (by simp; omega)]

theorem strpNumber_year {n : Nat} (h1 : 1000 ≤ n) (h2 : n < 10000) (s : CStr) :
    strpNumber 0 9999 4 (decStr n ++ s) = some (n, s) := by
  have hd : decStr n = [digitChar (n / 10 / 10 / 10), digitChar (n / 10 / 10 % 10), digitChar (n / 10 % 10), digitChar (n % 10)] := by
    unfold decStr
    simp only [numLoop]
    rw [if_neg (by omega), if_neg (by omega), if_neg (by omega), if_pos (by omega)]
    rfl
  rw [hd]
  obtain ⟨a1, a2, -⟩ := strpDigit_char (d := n / 10 / 10 / 10) (by omega)
  obtain ⟨b1, -, -⟩ := strpDigit_char (d := n / 10 / 10 % 10) (by omega)
  obtain ⟨c1, -, -⟩ := strpDigit_char (d := n / 10 % 10) (by omega)
  obtain ⟨d1, -, -⟩ := strpDigit_char (d := n % 10) (by omega)
  show strpNumber 0 9999 4 (digitChar (n / 10 / 10 / 10) :: digitChar (n / 10 / 10 % 10) :: digitChar (n / 10 % 10) :: digitChar (n % 10) :: s) = _
  unfold strpNumber
  rw [if_neg a2, a1]
  have hm : moreDigits 9999 (4 - 1) (n / 10 / 10 / 10) (digitChar (n / 10 / 10 % 10) :: digitChar (n / 10 % 10) :: digitChar (n % 10) :: s) = (n, s) := by
    rw [moreDigits_step (by omega) b1, moreDigits_step (by omega) c1, moreDigits_step (by omega) d1, moreDigits]
    congr 1
    omega
  simp only
  rw [hm, if_neg (by simp; omega)]

theorem strpName_day {w : Nat} (h : w < 7) (s : CStr) : strpName dayNames 0 (abbr dayNames w ++ 44 :: s) = some (w, 44 :: s) := by
  have : w = 0 ∨ w = 1 ∨ w = 2 ∨ w = 3 ∨ w = 4 ∨ w = 5 ∨ w = 6 := by omega
  rcases this with rfl | rfl | rfl | rfl | rfl | rfl | rfl <;> rfl

theorem strpName_month {m : Nat} (h : m < 12) (s : CStr) : strpName monthNames 0 (abbr monthNames m ++ 32 :: s) = some (m, 32 :: s) := by
  have : m = 0 ∨ m = 1 ∨ m = 2 ∨ m = 3 ∨ m = 4 ∨ m = 5 ∨ m = 6 ∨ m = 7 ∨ m = 8 ∨ m = 9 ∨ m = 10 ∨ m = 11 := by omega
  rcases this with rfl | rfl | rfl | rfl | rfl | rfl | rfl | rfl | rfl | rfl | rfl | rfl <;> rfl

theorem skipSpace_one {c : Byte} (h : isSpace c = false) (s : CStr) : skipSpace (32 :: c :: s) = c :: s := by
  unfold skipSpace
  rw [List.dropWhile_cons_of_pos (by decide), List.dropWhile_cons_of_neg (by rw [h]; decide)]

theorem skipSpace_month {m : Nat} (h : m < 12) (s : CStr) : skipSpace (32 :: (abbr monthNames m ++ s)) = abbr monthNames m ++ s := by
  have : m = 0 ∨ m = 1 ∨ m = 2 ∨ m = 3 ∨ m = 4 ∨ m = 5 ∨ m = 6 ∨ m = 7 ∨ m = 8 ∨ m = 9 ∨ m = 10 ∨ m = 11 := by omega
  rcases this with rfl | rfl | rfl | rfl | rfl | rfl | rfl | rfl | rfl | rfl | rfl | rfl <;> rfl

theorem skipSpace_two (n : Nat) (s : CStr) : skipSpace (32 :: (twoDigits n ++ s)) = twoDigits n ++ s :=
  skipSpace_one (strpDigit_char (Nat.mod_lt _ (by decide))).2.2 _

theorem skipSpace_year {n : Nat} (h1 : 1000 ≤ n) (h2 : n < 10000) (s : CStr) : skipSpace (32 :: (decStr n ++ s)) = decStr n ++ s := by
  have hd : ∃ r, decStr n = digitChar (n / 10 / 10 / 10) :: r := by
    unfold decStr
    simp only [numLoop]
    rw [if_neg (by omega), if_neg (by omega), if_neg (by omega), if_pos (by omega)]
    exact ⟨_, rfl⟩
  obtain ⟨r, hr⟩ := hd
  rw [hr]
  exact skipSpace_one (strpDigit_char (by omega)).2.2 _

/-- The fields are in the ranges `strptime` accepts. -/
structure TmOk (tm : Tm) : Prop where
  wday : tm.wday < 7
  mday1 : 1 ≤ tm.mday
  mday2 : tm.mday ≤ 31
  mon : tm.mon < 12
  year1 : 1000 ≤ tm.year
  year2 : tm.year < 10000
  hour : tm.hour < 24
  min : tm.min < 60
  sec : tm.sec < 62

theorem readDate_format {tm : Tm} (h : TmOk tm) (r : CStr) : readDate (dateFormat tm ++ r) = some (tm, r) := by
  obtain ⟨h1, h2, h3, h4, h5, h6, h7, h8, h9⟩ := h
  unfold readDate dateFormat
  simp only [List.append_assoc, List.cons_append]
  rw [strpName_day h1]
  simp only [Option.bind_eq_bind, Option.bind_some, strpChar, if_true]
  rw [skipSpace_two, strpNumber_two h2 h3 (by omega)]
  simp only [Option.bind_some]
  rw [skipSpace_month h4, strpName_month h4]
  simp only [Option.bind_some]
  rw [skipSpace_year h5 h6, strpNumber_year h5 h6]
  simp only [Option.bind_some]
  rw [skipSpace_two, strpNumber_two (by omega) (by omega) (by omega)]
  simp only [Option.bind_some, if_true]
  rw [strpNumber_two (by omega) (by omega) (by omega)]
  simp only [Option.bind_some, if_true]
  rw [strpNumber_two (by omega) (by omega) (by omega)]
  rfl

theorem gmtime_ok {t : Nat} (h : t < 253402300800) : TmOk (gmtime t) := by
  obtain ⟨y1, y2⟩ := gmtime_year h
  have hd := gmtime_date t
  obtain ⟨h1, -⟩ := dateOfDay_valid (t / 86400)
  rw [← hd] at h1
  obtain ⟨m1, m2, d1, d2⟩ := h1
  have hl := (monthLength_pos (tmDate (gmtime t)).year (tmDate (gmtime t)).month).2
  refine ⟨?_, d1, Nat.le_trans d2 hl, m2, by omega, y2, ?_, ?_, ?_⟩
  · exact Nat.mod_lt _ (by decide)
  · show t % 86400 / 3600 < 24
    omega
  · show t % 86400 % 3600 / 60 < 60
    omega
  · show t % 86400 % 60 < 62
    omega

end Loc
