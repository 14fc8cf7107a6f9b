import Verif.Spec.Bogon
import Verif.Lemmas.Summarize
import Verif.Model.Bogon
/-
Bogon enumerations.
-/
namespace Loc
open Spec

/-! ### Ranges -/

theorem summ_spec {first last : Addr} (hf : addrFamily first = addrFamily last) (hlt : value first < value last)
    {list : NetList} (ha : Ascending list) (hl : ∀ m ∈ list, Block m) :
    ∃ (l' : NetList) (S : Addr → Prop), listSummarize 128 first last list = .ok l' ∧ Ascending l' ∧ (∀ m ∈ l', Block m) ∧
      (∀ F x, CoversF F l' x ↔ CoversF F list x ∨ (addrFamily first = F ∧ S x)) ∧
      (∀ x, value first ≤ value x → value x ≤ value last → S x) ∧
      (ExactRange first last → ∀ x, S x → value first ≤ value x ∧ value x ≤ value last) := by
  have hf' := family_iff.mp hf
  have hs : listSummarize 128 first last list = summarizeLoop first last list 128 := by
    unfold listSummarize
    rw [if_neg (not_not_intro hf), if_neg (mt addrCmp_nonneg.mp (Nat.not_le_of_lt hlt))]
  by_cases hh : AcrossMiddle first last
  · obtain ⟨n1, n2, mid, l', h1, h2, h3, h4, h5, h6, h7, h8, h9, h10, -, h11, h12, h13⟩ := summarize_two hf' hh ha hl 125
    refine ⟨l', fun x => Contains n1 x ∨ Contains n2 x, hs.trans h1, h8, ?_, ?_, ?_, ?_⟩
    · intro m hm
      rcases h10 m hm with h | rfl | rfl
      exacts [hl m h, h2, h6.1]
    · intro F x
      rw [h13, h11, h12]
      by_cases e : addrFamily first = F <;> simp [e]
    · intro x hx1 hx2
      by_cases hm : value x < familyMiddle first
      · refine .inl ⟨?_, by omega⟩
        rw [h3]
        refine Nat.le_trans ?_ hx1
        unfold familyFirst
        split
        · rename_i h
          unfold IsV4 at h
          simp only [Nat.reducePow] at h
          omega
        · exact Nat.zero_le _
      · exact .inr ⟨by omega, Nat.le_trans hx2 h6.2.2.1.2⟩
    · rintro (⟨hn, -⟩ | ⟨-, hfirst, m, m1, m2, m3⟩) x hx
      · exact absurd hh hn
      · have hmid := hh.2
        have hlow := hh.1
        have hlast := h6.2.2.1.2
        have hin := h6.2.2.2 m m1 ⟨by omega, by omega⟩ ⟨by omega, by omega⟩
        have hr := inside_range h6.1 hin
        unfold Contains at hx
        omega
  · obtain ⟨n, l', h1, h2, h3, h4, h5, -, h6, h7⟩ := summarize_one hf' (Nat.le_of_lt hlt) hh ha hl 126
    refine ⟨l', fun x => Contains n x, hs.trans h1, h3, ?_, ?_, fun x hx1 hx2 => ⟨Nat.le_trans h2.2.1.1 hx1, Nat.le_trans hx2 h2.2.2.1.2⟩, ?_⟩
    · intro m hm
      rcases h5 m hm with h | rfl
      exacts [hl m h, h2.1]
    · intro F x
      rw [h7, h6]
    · rintro (⟨-, m, m1, m2, m3⟩ | ⟨hn, -⟩) x hx
      · have h6 := h2.2.1.1
        have h7 := h2.2.2.1.2
        have hin := h2.2.2.2 m m1 ⟨by omega, by omega⟩ ⟨by omega, by omega⟩
        have hr := inside_range h2.1 hin
        unfold Contains at hx
        omega
      · exact absurd hn hh

/-- Nothing is pushed if the range is empty. -/
theorem pushGap_empty {g h : Addr} (hlt : value h < value g) (s : NetList) : pushGap g h s = .ok (some s) := by
  unfold pushGap
  rw [if_neg (by rw [addrCmp_nonpos]; omega)]

theorem pushGap_fails {g h : Addr} (hle : value g ≤ value h) (hb : addrFamily g ≠ addrFamily h ∨ value g = value h) (s : NetList) :
    pushGap g h s = .ok none := by
  unfold pushGap
  rw [if_pos (addrCmp_nonpos.mpr hle)]
  have : listSummarize 128 g h s = .error (.err EINVAL) := by
    unfold listSummarize
    by_cases hf : addrFamily g = addrFamily h
    · rw [if_neg (not_not_intro hf), if_pos (addrCmp_nonneg.mpr ?_)]
      rcases hb with hb | hb
      · exact absurd hf hb
      · omega
    · rw [if_pos hf]
  rw [this]

theorem pushGap_ok {g h : Addr} (hf : addrFamily g = addrFamily h) (hlt : value g < value h) {list : NetList} (ha : Ascending list) (hl : ∀ m ∈ list, Block m) :
    ∃ (l' : NetList) (S : Addr → Prop), pushGap g h list = .ok (some l') ∧ Ascending l' ∧ (∀ m ∈ l', Block m) ∧
      (∀ F x, CoversF F l' x ↔ CoversF F list x ∨ (addrFamily g = F ∧ S x)) ∧
      (∀ x, value g ≤ value x → value x ≤ value h → S x) ∧
      (ExactRange g h → ∀ x, S x → value g ≤ value x ∧ value x ≤ value h) := by
  obtain ⟨l', S, h1, h2⟩ := summ_spec hf hlt ha hl
  refine ⟨l', S, ?_, h2⟩
  unfold pushGap
  rw [if_pos (addrCmp_nonpos.mpr (Nat.le_of_lt hlt)), h1]

/-- The three cases. -/
theorem pushGap_cases (g h : Addr) {list : NetList} (ha : Ascending list) (hl : ∀ m ∈ list, Block m) :
    (pushGap g h list = .ok none ∧ value g ≤ value h ∧ (addrFamily g ≠ addrFamily h ∨ value g = value h)) ∨
    (value h < value g ∧ pushGap g h list = .ok (some list)) ∨
    (addrFamily g = addrFamily h ∧ value g < value h ∧ ∃ l', pushGap g h list = .ok (some l')) := by
  rcases Nat.lt_or_ge (value h) (value g) with h1 | h1
  · exact .inr (.inl ⟨h1, pushGap_empty h1 list⟩)
  · by_cases h2 : addrFamily g ≠ addrFamily h ∨ value g = value h
    · exact .inl ⟨pushGap_fails h1 h2 list, h1, h2⟩
    · have h3 : addrFamily g = addrFamily h := by
        by_contra h3
        exact h2 (.inl h3)
      have h4 : value g < value h := by
        rcases Nat.lt_or_ge (value g) (value h) with h4 | h4
        · exact h4
        · exact absurd (.inr (by omega)) h2
      obtain ⟨l', S, h5, -⟩ := pushGap_ok h3 h4 ha hl
      exact .inr (.inr ⟨h3, h4, l', h5⟩)

/-! ### The enumeration as a function of the networks -/

/-- What happens after the last network. -/
def finishL (g6 g4 : Addr) : Res (Option NetList) :=
  match (if !allZeroes g6 then pushGap g6 (addrResetLast .inet6) [] else .ok (some [])) with
  | .error x => .error x
  | .ok none => .ok none
  | .ok (some s) => if !allZeroes g4 then pushGap g4 (addrResetLast .inet) s else .ok (some s)

/-- The bogons between the given networks, and whether the enumeration succeeds. -/
def bogL : List Network → Addr → Addr → Res (List Network × Bool)
  | [], g6, g4 =>
    match finishL g6 g4 with
    | .error x => .error x
    | .ok none => .ok ([], false)
    | .ok (some s) => .ok (s, true)
  | n :: l, g6, g4 =>
    let g := gapOf g6 g4 n.family
    if addrCmp g n.last ≥ 0 then bogL l g6 g4
    else
      match pushGap g (addrDec n.first) [] with
      | .error x => .error x
      | .ok none => .ok ([], false)
      | .ok (some s) =>
        match bogL l (if n.family = Family.inet6 then addrInc n.last else g6) (if n.family = Family.inet then addrInc n.last else g4) with
        | .error x => .error x
        | .ok (R, b) => .ok (s ++ R, b)

/-- The networks the enumeration looks at. -/
def sel (f : Filter) (l : List Network) : List Network := l.filter (fun n => matchNetwork f n && !decide (countryCode n = []))

theorem dfsLoop_stack {db : Db} {filter : Bool} : ∀ (fuel : Nat) (e : NetEnum) (x : Next Network) (e' : NetEnum),
    dfsLoop db filter fuel e = .ok (x, e') → e'.stack = e.stack := by
  intro fuel
  induction fuel with
  | zero => intro e x e' h; cases h
  | succ fuel ih =>
    intro e x e' h
    rw [dfsLoop] at h
    split at h
    · cases h; rfl
    · split at h
      · cases h
      · split at h
        · exact (ih _ _ _ h).trans rfl
        · split at h
          · cases h
          · simp only at h
            split at h
            · cases h
            · cases h; rfl
            · split at h
              · cases h
              · cases h; rfl
              · split at h
                · cases h
                · cases h; rfl
                · split at h
                  · split at h
                    · cases h
                    · cases h; rfl
                    · cases h; rfl
                    · split at h
                      · cases h; rfl
                      · exact (ih _ _ _ h).trans rfl
                  · exact (ih _ _ _ h).trans rfl

theorem nextRaw_stack {db : Db} {e e' : NetEnum} {x : Next Network} (hs : e.stack = []) (h : nextNetworkRaw db true e = .ok (x, e')) :
    e'.stack = [] := by
  unfold nextNetworkRaw at h
  rw [hs] at h
  simp only [popMatching] at h
  exact (dfsLoop_stack _ _ _ _ h).trans rfl

theorem finish_sim {e : NetEnum} (hs : e.stack = []) :
    (finishL e.gap6 e.gap4 = .ok none → ∃ e', finishBogons e = .ok (.failed, e')) ∧
    (∀ s, finishL e.gap6 e.gap4 = .ok (some s) → ∃ g6 g4, allZeroes g6 = true ∧ allZeroes g4 = true ∧
      finishBogons e = .ok (popBogon { e with stack := s, gap6 := g6, gap4 := g4 })) := by
  have hz6 : allZeroes (addrReset .inet6) = true := by decide
  have hz4 : allZeroes (addrReset .inet) = true := by decide
  unfold finishL finishBogons
  rw [hs]
  cases h6 : (if (!allZeroes e.gap6) = true then pushGap e.gap6 (addrResetLast .inet6) [] else Except.ok (some [])) with
  | error x => exact ⟨fun h => (by cases h), fun s h => (by cases h)⟩
  | ok o =>
    cases o with
    | none => exact ⟨fun _ => ⟨_, rfl⟩, fun s h => (by cases h)⟩
    | some s =>
      simp only
      cases h4 : (if (!allZeroes e.gap4) = true then pushGap e.gap4 (addrResetLast .inet) s else Except.ok (some s)) with
      | error x => exact ⟨fun h => (by cases h), fun s h => (by cases h)⟩
      | ok o =>
        cases o with
        | none => exact ⟨fun _ => ⟨_, rfl⟩, fun s h => (by cases h)⟩
        | some s' =>
          refine ⟨fun h => (by cases h), fun t h => ?_⟩
          cases h
          refine ⟨_, _, ?_, ?_, rfl⟩
          · cases hz : allZeroes e.gap6
            · simpa using hz6
            · simpa using hz
          · cases hz : allZeroes e.gap4
            · simpa using hz4
            · simpa using hz

theorem sel_split {f : Filter} {pre post : List Network} {n : Network} (h : ∀ m ∈ pre, matchNetwork f m = false) (hn : matchNetwork f n = true) :
    sel f (pre ++ n :: post) = if countryCode n = [] then sel f post else n :: sel f post := by
  unfold sel
  rw [List.filter_append, List.filter_eq_nil_iff (l := pre) |>.mpr (fun m hm => by rw [h m hm]; simp)]
  by_cases hc : countryCode n = []
  · rw [if_pos hc, List.filter_cons_of_neg (by simp [hc])]
    rfl
  · rw [if_neg hc, List.filter_cons_of_pos (by simp [hc, hn])]
    rfl

theorem loop_end {db : Db} {f : Filter} {l : List Network} {e e1 : NetEnum} {R : List Network} {b : Bool} (hs : e.stack = []) (hf : e.filter = f)
    (hb : bogL (sel f l) e.gap6 e.gap4 = .ok (R, b)) (h1 : ∀ m ∈ l, (!true || matchNetwork e.filter m) = false)
    (h2 : nextNetworkRaw db true e = .ok (.done, e1)) (h3 : EnumAt db e1 []) (h4 : e1.filter = e.filter) (h5 : e1.gap6 = e.gap6) (h6 : e1.gap4 = e.gap4) :
    ∃ K x e', (∀ f0, K ≤ f0 → bogonLoop db f0 e = .ok (x, e')) ∧
      ((x = .failed ∧ R = [] ∧ b = false) ∨ (x = .done ∧ R = [] ∧ b = true) ∨
       (∃ n l' R', x = .item n ∧ EnumAt db { e' with stack := [] } l' ∧ e'.filter = f ∧ R = n :: (e'.stack ++ R') ∧
         ((l'.length < l.length ∧ bogL (sel f l') e'.gap6 e'.gap4 = .ok (R', b)) ∨
          (l' = [] ∧ R' = [] ∧ b = true ∧ allZeroes e'.gap6 = true ∧ allZeroes e'.gap4 = true)))) := by
  have hs1 := nextRaw_stack hs h2
  have hnil : sel f l = [] := by
    unfold sel
    rw [List.filter_eq_nil_iff]
    intro m hm
    have := h1 m hm
    rw [hf] at this
    simp at this
    simp [this]
  rw [hnil, bogL, ← h5, ← h6] at hb
  obtain ⟨f1, f2⟩ := finish_sim hs1
  have key : ∀ f0, bogonLoop db (f0 + 1) e = finishBogons e1 := by
    intro f0
    rw [bogonLoop, h2]
  have fin : ∀ x e', finishBogons e1 = .ok (x, e') → ∀ f0, 1 ≤ f0 → bogonLoop db f0 e = .ok (x, e') := by
    intro x e' h f0 hf0
    obtain ⟨f0, rfl⟩ : ∃ b', f0 = b' + 1 := ⟨f0 - 1, by omega⟩
    rw [key, h]
  cases hl : finishL e1.gap6 e1.gap4 with
  | error x => rw [hl] at hb; cases hb
  | ok o =>
    rw [hl] at hb
    cases o with
    | none =>
      cases hb
      obtain ⟨e', he'⟩ := f1 hl
      exact ⟨1, .failed, e', fin _ _ he', .inl ⟨rfl, rfl, rfl⟩⟩
    | some s =>
      cases hb
      obtain ⟨g6, g4, z6, z4, hp⟩ := f2 _ hl
      cases R with
      | nil => exact ⟨1, .done, _, fin _ _ hp, .inr (.inl ⟨rfl, rfl, rfl⟩)⟩
      | cons n R =>
        obtain ⟨rest, r1, r2⟩ := enumAt_stack h3
        have hr : rest = [] := (List.append_eq_nil_iff.mp r1.symm).2
        subst hr
        refine ⟨1, .item n, { e1 with stack := R, gap6 := g6, gap4 := g4 }, fin _ _ hp, .inr (.inr ⟨n, [], [], rfl, ?_, h4.trans hf, by simp, .inr ⟨rfl, rfl, rfl, z6, z4⟩⟩)⟩
        obtain ⟨recs, nets, junk, P, enc, hi, hov, hst, heq⟩ := h3
        refine ⟨recs, nets, junk, P, enc, ?_, hov, hst, ?_⟩
        · exact ⟨hi.stk, hi.nodup, hi.disj, hi.addr, hi.mono, hi.tail, hi.zero, hi.good, hi.country, hi.len, hi.visited, hi.range⟩
        · simp only [List.nil_append]
          exact (List.append_eq_nil_iff.mp heq.symm).2.symm

theorem enumAt_gaps {db : Db} {e : NetEnum} {l : List Network} (h : EnumAt db e l) (g6 g4 : Addr) : EnumAt db { e with gap6 := g6, gap4 := g4 } l := by
  obtain ⟨recs, nets, junk, P, enc, hi, hov, hst, heq⟩ := h
  exact ⟨recs, nets, junk, P, enc, ⟨hi.stk, hi.nodup, hi.disj, hi.addr, hi.mono, hi.tail, hi.zero, hi.good, hi.country, hi.len, hi.visited, hi.range⟩, hov, hst, heq⟩

/-- One call. -/
theorem loop_sim {db : Db} {f : Filter} : ∀ (N : Nat) (l : List Network) (e : NetEnum) (R : List Network) (b : Bool), l.length ≤ N →
    EnumAt db e l → e.stack = [] → e.filter = f → bogL (sel f l) e.gap6 e.gap4 = .ok (R, b) →
    ∃ K x e', (∀ f0, K ≤ f0 → bogonLoop db f0 e = .ok (x, e')) ∧
      ((x = .failed ∧ R = [] ∧ b = false) ∨ (x = .done ∧ R = [] ∧ b = true) ∨
       (∃ n l' R', x = .item n ∧ EnumAt db { e' with stack := [] } l' ∧ e'.filter = f ∧ R = n :: (e'.stack ++ R') ∧
         ((l'.length < l.length ∧ bogL (sel f l') e'.gap6 e'.gap4 = .ok (R', b)) ∨
          (l' = [] ∧ R' = [] ∧ b = true ∧ allZeroes e'.gap6 = true ∧ allZeroes e'.gap4 = true)))) := by
  intro N
  induction N with
  | zero =>
    intro l e R b hN he hs hf hb
    obtain rfl : l = [] := List.eq_nil_of_length_eq_zero (by omega)
    rcases next_enumAt he true with ⟨pre, n, post, e1, h1, -⟩ | ⟨e1, h1, h2, h3, h4, h5, h6⟩
    · simp at h1
    · exact loop_end hs hf hb h1 h2 h3 h4 h5 h6
  | succ N ih =>
    intro l e R b hN he hs hf hb
    rcases next_enumAt he true with ⟨pre, n, post, e1, rfl, h2, h3, h4, h5, h6, h7, h8⟩ | ⟨e1, h1, h2, h3, h4, h5, h6⟩
    · rw [hf] at h2 h3
      simp only [Bool.not_true, Bool.false_or] at h2 h3
      have hs1 := nextRaw_stack hs h4
      have hlen : post.length ≤ N ∧ post.length < (pre ++ n :: post).length := by
        simp at hN ⊢
        omega
      rw [sel_split h2 h3, ← h7, ← h8] at hb
      -- the loop continues
      have cont : ∀ e2 : NetEnum, (∀ f0, bogonLoop db (f0 + 1) e = bogonLoop db f0 e2) → EnumAt db e2 post → e2.stack = [] → e2.filter = f →
          bogL (sel f post) e2.gap6 e2.gap4 = .ok (R, b) → ∃ K x e', (∀ f0, K ≤ f0 → bogonLoop db f0 e = .ok (x, e')) ∧
          ((x = .failed ∧ R = [] ∧ b = false) ∨ (x = .done ∧ R = [] ∧ b = true) ∨
           (∃ m l' R', x = .item m ∧ EnumAt db { e' with stack := [] } l' ∧ e'.filter = f ∧ R = m :: (e'.stack ++ R') ∧
             ((l'.length < (pre ++ n :: post).length ∧ bogL (sel f l') e'.gap6 e'.gap4 = .ok (R', b)) ∨
              (l' = [] ∧ R' = [] ∧ b = true ∧ allZeroes e'.gap6 = true ∧ allZeroes e'.gap4 = true)))) := by
        intro e2 c1 c2 c3 c4 c5
        obtain ⟨K, x, e', k1, k2⟩ := ih post e2 R b hlen.1 c2 c3 c4 c5
        refine ⟨K + 1, x, e', ?_, ?_⟩
        · intro f0 hf0
          obtain ⟨f0, rfl⟩ : ∃ b', f0 = b' + 1 := ⟨f0 - 1, by omega⟩
          rw [c1]
          exact k1 f0 (by omega)
        · refine k2.imp id (.imp id ?_)
          rintro ⟨m, l', R', q1, q2, q3, q4, q5⟩
          exact ⟨m, l', R', q1, q2, q3, q4, q5.imp (fun ⟨a, b⟩ => ⟨by omega, b⟩) id⟩
      by_cases hc : countryCode n = []
      · rw [if_pos hc] at hb
        refine cont e1 ?_ h5 hs1 (h6.trans hf) hb
        intro f0
        rw [bogonLoop, h4]
        simp only
        rw [if_pos hc]
      · rw [if_neg hc, bogL] at hb
        by_cases hg : addrCmp (gapOf e1.gap6 e1.gap4 n.family) n.last ≥ 0
        · rw [if_pos hg] at hb
          refine cont e1 ?_ h5 hs1 (h6.trans hf) hb
          intro f0
          rw [bogonLoop, h4]
          simp only
          rw [if_neg hc, if_pos hg]
        · rw [if_neg hg] at hb
          cases hp : pushGap (gapOf e1.gap6 e1.gap4 n.family) (addrDec n.first) [] with
          | error x => rw [hp] at hb; cases hb
          | ok o =>
            rw [hp] at hb
            cases o with
            | none =>
              cases hb
              refine ⟨1, .failed, e1, ?_, .inl ⟨rfl, rfl, rfl⟩⟩
              intro f0 hf0
              obtain ⟨f0, rfl⟩ : ∃ b', f0 = b' + 1 := ⟨f0 - 1, by omega⟩
              rw [bogonLoop, h4]
              simp only
              rw [if_neg hc, if_neg hg, hs1, hp]
            | some stack =>
              simp only at hb
              obtain ⟨rest, r1, r2⟩ := enumAt_stack h5
              rw [hs1, List.nil_append] at r1
              subst r1
              cases hbl : bogL (sel f post) (if n.family = Family.inet6 then addrInc n.last else e1.gap6) (if n.family = Family.inet then addrInc n.last else e1.gap4) with
              | error x => rw [hbl] at hb; cases hb
              | ok p =>
                obtain ⟨R', b'⟩ := p
                rw [hbl] at hb
                simp only [Except.ok.injEq, Prod.mk.injEq] at hb
                obtain ⟨rfl, rfl⟩ := hb
                cases stack with
                | nil =>
                  refine cont { e1 with stack := [], gap6 := if n.family = Family.inet6 then addrInc n.last else e1.gap6, gap4 := if n.family = Family.inet then addrInc n.last else e1.gap4 } ?_ (enumAt_gaps (r2 []) _ _) rfl (h6.trans hf) hbl
                  intro f0
                  rw [bogonLoop, h4]
                  simp only
                  rw [if_neg hc, if_neg hg, hs1, hp]
                | cons m st =>
                  refine ⟨1, .item m, { e1 with stack := st, gap6 := if n.family = Family.inet6 then addrInc n.last else e1.gap6, gap4 := if n.family = Family.inet then addrInc n.last else e1.gap4 }, ?_, .inr (.inr ⟨m, post, R', rfl, enumAt_gaps (r2 []) _ _, h6.trans hf, rfl, .inl ⟨hlen.2, hbl⟩⟩)⟩
                  intro f0 hf0
                  obtain ⟨f0, rfl⟩ : ∃ b', f0 = b' + 1 := ⟨f0 - 1, by omega⟩
                  rw [bogonLoop, h4]
                  simp only
                  rw [if_neg hc, if_neg hg, hs1, hp]
    · exact loop_end hs hf hb h1 h2 h3 h4 h5 h6

theorem drain_pops {db : Db} {R : List Network} {b : Bool} {e' : NetEnum} {K : Nat} : ∀ (st : NetList) (e : NetEnum), e.stack = st →
    (∀ f0 fuel, K ≤ f0 → K ≤ fuel → drain (nextBogon db f0) fuel { e with stack := [] } = .ok (R, b, e')) →
    ∀ f0 fuel, K ≤ f0 → K + st.length ≤ fuel → drain (nextBogon db f0) fuel e = .ok (st ++ R, b, e') := by
  intro st
  induction st with
  | nil =>
    intro e he h f0 fuel hf0 hfu
    have : ({ e with stack := [] } : NetEnum) = e := by
      obtain ⟨a1, a2, a3, a4, a5, a6, a7⟩ := e
      simp only at he
      subst he
      rfl
    rw [this] at h
    exact h f0 fuel hf0 (by simpa using hfu)
  | cons n st ih =>
    intro e he h f0 fuel hf0 hfu
    simp only [List.length_cons] at hfu
    obtain ⟨fuel, rfl⟩ : ∃ b', fuel = b' + 1 := ⟨fuel - 1, by omega⟩
    have hn : nextBogon db f0 e = .ok (.item n, { e with stack := st }) := by
      unfold nextBogon
      rw [he]
    rw [drain, hn]
    simp only
    rw [ih { e with stack := st } rfl h f0 fuel hf0 (by omega)]
    rfl

/-- The whole enumeration. -/
theorem bogon_sim {db : Db} {f : Filter} : ∀ (N : Nat) (l : List Network) (e : NetEnum) (R : List Network) (b : Bool), l.length ≤ N →
    EnumAt db { e with stack := [] } l → e.filter = f → bogL (sel f l) e.gap6 e.gap4 = .ok (R, b) →
    ∃ K e', ∀ f0 fuel, K ≤ f0 → K ≤ fuel → drain (nextBogon db f0) fuel e = .ok (e.stack ++ R, b, e') := by
  intro N
  induction N using Nat.strong_induction_on with
  | _ N ih =>
    intro l e R b hN he hf hb
    suffices h : ∃ K e', ∀ f0 fuel, K ≤ f0 → K ≤ fuel → drain (nextBogon db f0) fuel { e with stack := [] } = .ok (R, b, e') by
      obtain ⟨K, e', h⟩ := h
      refine ⟨K + e.stack.length, e', fun f0 fuel hf0 hfu => ?_⟩
      exact drain_pops e.stack e rfl h f0 fuel (by omega) hfu
    obtain ⟨K, x, e', k1, k2⟩ := loop_sim l.length l { e with stack := [] } R b (Nat.le_refl _) he rfl hf hb
    have hn : ∀ f0, K ≤ f0 → nextBogon db f0 { e with stack := [] } = .ok (x, e') := fun f0 hf0 => k1 f0 hf0
    rcases k2 with ⟨rfl, rfl, rfl⟩ | ⟨rfl, rfl, rfl⟩ | ⟨n, l', R', rfl, q2, q3, rfl, q5⟩
    · refine ⟨K + 1, e', fun f0 fuel hf0 hfu => ?_⟩
      obtain ⟨fuel, rfl⟩ : ∃ b', fuel = b' + 1 := ⟨fuel - 1, by omega⟩
      rw [drain, hn f0 (by omega)]
    · refine ⟨K + 1, e', fun f0 fuel hf0 hfu => ?_⟩
      obtain ⟨fuel, rfl⟩ : ∃ b', fuel = b' + 1 := ⟨fuel - 1, by omega⟩
      rw [drain, hn f0 (by omega)]
    · suffices h : ∃ K2 e2, ∀ f0 fuel, K2 ≤ f0 → K2 ≤ fuel → drain (nextBogon db f0) fuel e' = .ok (e'.stack ++ R', b, e2) by
        obtain ⟨K2, e2, h⟩ := h
        refine ⟨K + K2 + 1, e2, fun f0 fuel hf0 hfu => ?_⟩
        obtain ⟨fuel, rfl⟩ : ∃ b', fuel = b' + 1 := ⟨fuel - 1, by omega⟩
        rw [drain, hn f0 (by omega)]
        simp only
        rw [h f0 fuel (by omega) (by omega)]
      rcases q5 with ⟨q5, q6⟩ | ⟨rfl, rfl, rfl, z6, z4⟩
      · exact ih l'.length (by omega) l' e' R' b (Nat.le_refl _) q2 q3 q6
      · have hb' : bogL (sel f []) e'.gap6 e'.gap4 = .ok ([], true) := by
          show bogL [] e'.gap6 e'.gap4 = _
          rw [bogL, finishL, z6, z4]
          rfl
        obtain ⟨K3, y, e3, m1, m2⟩ := loop_sim 0 [] { e' with stack := [] } [] true (Nat.le_refl _) q2 rfl q3 hb'
        have hy : y = .done := by
          rcases m2 with ⟨-, -, h⟩ | ⟨h, -⟩ | ⟨n, l', R', -, -, -, h, -⟩
          · cases h
          · exact h
          · cases h
        subst hy
        refine ⟨K3 + 1 + e'.stack.length, e3, fun f0 fuel hf0 hfu => ?_⟩
        refine drain_pops e'.stack e' rfl (K := K3 + 1) ?_ f0 fuel (by omega) (by omega)
        intro f0 fuel hf0 hfu
        obtain ⟨fuel, rfl⟩ : ∃ b', fuel = b' + 1 := ⟨fuel - 1, by omega⟩
        have : nextBogon db f0 { e' with stack := [] } = .ok (.done, e3) := m1 f0 (by omega)
        rw [drain, this]

end Loc
