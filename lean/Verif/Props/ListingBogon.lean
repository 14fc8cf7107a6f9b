import Verif.Props.Listing
/-
C72: `location list-bogons` in the format `ipset`.
-/
namespace Loc
open Spec

/-- The networks of a gap are of the family where it starts. -/
theorem pushGap_family {g h : Addr} {list s : NetList} (ha : Ascending list) (hl : ∀ m ∈ list, Block m) (hp : pushGap g h list = .ok (some s)) :
    ∀ m ∈ s, Block m ∧ (m.family = addrFamily g ∨ ∃ k ∈ list, m.family = k.family) := by
  rcases pushGap_cases g h ha hl with ⟨h1, -⟩ | ⟨-, h1⟩ | ⟨h1, h2, -⟩
  · rw [h1] at hp; cases hp
  · rw [h1] at hp
    cases hp
    exact fun m hm => ⟨hl m hm, .inr ⟨m, hm, rfl⟩⟩
  · obtain ⟨l', S, k1, k2, k3, k4, -⟩ := pushGap_ok h1 h2 ha hl
    rw [k1] at hp
    cases hp
    intro m hm
    refine ⟨k3 m hm, ?_⟩
    rcases (k4 m.family m.first).mp ⟨m, hm, rfl, contains_first (k3 m hm)⟩ with ⟨k, hk, h3, -⟩ | ⟨h3, -⟩
    · exact .inr ⟨k, hk, h3.symm⟩
    · exact .inl h3.symm

theorem finish_family {F : Family} {g6 g4 : Addr} (hF : addrFamily (gapOf g6 g4 F) = F) (hO : ∀ G, G ≠ F → allZeroes (gapOf g6 g4 G) = true)
    {s : NetList} (h : finishL g6 g4 = .ok (some s)) : ∀ m ∈ s, m.family = F := by
  unfold finishL at h
  cases F with
  | inet6 =>
    have h4 : allZeroes g4 = true := hO .inet (by decide)
    rw [h4] at h
    simp only [Bool.not_true, Bool.false_eq_true, ↓reduceIte] at h
    by_cases h6 : allZeroes g6 = true
    · rw [h6] at h
      simp only [Bool.not_true, Bool.false_eq_true, ↓reduceIte] at h
      cases h
      intro m hm; cases hm
    · rw [Bool.not_eq_true] at h6
      rw [h6] at h
      simp only [Bool.not_false, ↓reduceIte] at h
      rcases pushGap_total g6 (addrResetLast .inet6) (list := []) .nil (by simp) with h1 | ⟨s', h1, -, -⟩
      · rw [h1] at h; cases h
      · rw [h1] at h
        cases h
        intro m hm
        rcases (pushGap_family .nil (by simp) h1 m hm).2 with h2 | ⟨k, hk, -⟩
        · exact h2.trans hF
        · cases hk
  | inet =>
    have h6 : allZeroes g6 = true := hO .inet6 (by decide)
    rw [h6] at h
    simp only [Bool.not_true, Bool.false_eq_true, ↓reduceIte] at h
    by_cases h4 : allZeroes g4 = true
    · rw [h4] at h
      simp only [Bool.not_true, Bool.false_eq_true, ↓reduceIte] at h
      cases h
      intro m hm; cases hm
    · rw [Bool.not_eq_true] at h4
      rw [h4] at h
      simp only [Bool.not_false, ↓reduceIte] at h
      intro m hm
      rcases (pushGap_family .nil (by simp) h m hm).2 with h2 | ⟨k, hk, -⟩
      · exact h2.trans hF
      · cases hk

/-- If all networks are of one family, the bogons are of that family. -/
theorem bogL_family {C : List Network} (hC : BSet C) (hok : BogonsOk C) {F : Family} (hF : ∀ n ∈ C, n.family = F) :
    ∀ (l : List Network) (g6 g4 : Addr), (∀ n ∈ l, n ∈ C) → addrFamily (gapOf g6 g4 F) = F → (∀ G, G ≠ F → allZeroes (gapOf g6 g4 G) = true) →
      ∀ R b, bogL l g6 g4 = .ok (R, b) → ∀ m ∈ R, m.family = F := by
  intro l
  induction l with
  | nil =>
    intro g6 g4 _ hf ho R b h
    rw [bogL] at h
    cases hfin : finishL g6 g4 with
    | error x => rw [hfin] at h; cases h
    | ok o =>
      rw [hfin] at h
      cases o with
      | none => cases h; intro m hm; cases hm
      | some s => cases h; exact finish_family hf ho hfin
  | cons n l ih =>
    intro g6 g4 hl hf ho R b h
    have hnC := hl n List.mem_cons_self
    have hl' : ∀ m ∈ l, m ∈ C := fun m hm => hl m (List.mem_cons_of_mem _ hm)
    rw [bogL] at h
    by_cases hc : addrCmp (gapOf g6 g4 n.family) n.last ≥ 0
    · rw [if_pos hc] at h
      exact ih g6 g4 hl' hf ho R b h
    · rw [if_neg hc] at h
      rcases pushGap_total (gapOf g6 g4 n.family) (addrDec n.first) (list := []) .nil (by simp) with h1 | ⟨s, h1, -, -⟩
      · rw [h1] at h; cases h; intro m hm; cases hm
      · rw [h1] at h
        simp only at h
        obtain ⟨R', b', r, -⟩ := bogL_total l (if n.family = Family.inet6 then addrInc n.last else g6) (if n.family = Family.inet then addrInc n.last else g4)
        rw [r] at h
        cases h
        have hnF := hF n hnC
        have hlf : addrFamily n.last = n.family := covers_fam hC hok hnC (contains_last (hC.blk n hnC))
        have hinner := hok.inner n hnC
        rw [show familyLast n.last = famMax n.last from rfl, famMax_eq hlf] at hinner
        obtain ⟨hif, -⟩ := inc_fam hlf hinner.2 (hok.away n hnC).2.2
        intro m hm
        rcases List.mem_append.mp hm with hm | hm
        · rcases (pushGap_family .nil (by simp) h1 m hm).2 with h2 | ⟨k, hk, -⟩
          · rw [h2, hnF]; exact hf
          · cases hk
        · refine ih _ _ hl' ?_ ?_ R' _ r m hm
          · rw [gapOf_if, if_pos hnF.symm, hif, hnF]
          · intro G hG
            rw [gapOf_if, if_neg (by rw [hnF]; exact hG)]
            exact ho G hG

end Loc

namespace Loc.Props
open Loc Loc.Spec

/-- One output in the format `ipset`, in any order without repetitions. -/
theorem ipset_nodup {expo : Nat → Nat} {name : CStr} (hn : Plain name) {family : Nat} (hf : family ≠ 0) {L : List Network}
    (hb : ∀ n ∈ L, Block n) (ha : (L.map netText).Nodup) (hfam : ∀ n ∈ L, InFamily family n) (hl : L.length ≤ 1048576)
    (hh : hashsize expo L.length < 10 ^ 8) {kind : FileKind} (hk : kind ≠ .append) :
    ∃ f, writerRun .ipset expo (makeTag name family) family (L.map netText) (newFile kind) = .ok f ∧
      ipsetRestore f.content = some [⟨makeTag name family, decide (family = 10), 1048576, L.map netText⟩] := by
  have h0 : hashsize expo 0 < 10 ^ 8 := by unfold hashsize; rw [if_pos rfl]; decide
  have hlen : (L.map netText).length = L.length := List.length_map ..
  have key : ∀ k, hashsize expo k < 10 ^ 8 → ipsetRestore (ipsetText expo (makeTag name family) family k (L.map netText)) =
      some [⟨makeTag name family, decide (family = 10), 1048576, L.map netText⟩] := by
    intro k hk
    have := ipset_block (tag_plain hn family) (family := family) hk (S := []) (by simp) (family_texts hb hfam) ha []
    rw [List.append_nil, if_pos (by rw [hlen]; exact hl)] at this
    exact this
  cases kind with
  | append => exact absurd rfl hk
  | file =>
    obtain ⟨f, h1, h2⟩ := ipset_file (expo := expo) (tag := makeTag name family) hf (nets := L.map netText) h0 (by rw [hlen]; exact hh)
    exact ⟨f, h2, by rw [h1]; exact key _ (by rw [hlen]; exact hh)⟩
  | pipe =>
    obtain ⟨f, -, h1, h2⟩ := ipset_pipe (expo := expo) (tag := makeTag name family) hf (nets := L.map netText) (f := newFile .pipe) rfl
    refine ⟨f, h2, ?_⟩
    rw [h1]
    exact key 0 h0

/-- C72 for `list-bogons --family F` in the format `ipset`: if the bogon enumeration succeeds (`BogonsOk`, C29), it prints blocks
    of the family that cover every address of the family that belongs to no network with a country (if there is one).  If no
    block is printed twice, `ipset restore` makes one set of them.  Missing: outputs with a block that is printed twice
    (`list_bogons_violated_ipset`), and what C29 does not cover. -/
theorem list_bogons_ipset_partial {K : Type} {ctz0 : Nat} (h0 : 8 ≤ ctz0) {key1 key2 : Option K} {ops : List (WOp K)} {e : WEnv K}
    {w : Writer K} {f : Bytes} (h : Written ctz0 key1 key2 ops e w f) {db : Db} (ho : dbOpen f = .ok db)
    (hd : ¬ TooDeep (· ∈ w.networks.networks)) (hv : ∀ n ∈ w.networks.networks, ¬ AroundV4 n) (F : Family) :
    ∃ found, Selection w.networks.networks (InFamilyArg (some F)) found ∧
      (BogonsOk (withCountry found) → ∃ R lines steps, ShowsAll lines R ∧ (∀ n ∈ R, InFamilyArg (some F) n) ∧
        (∀ expo kind, FormatOk .ipset expo (some F) kind lines.length → lines.Nodup → ∀ fuel, steps ≤ fuel →
          ∃ out, listBogons db .ipset expo (some F) fuel (newFile kind) = .ok (out, 0) ∧ UnderstoodAs .ipset strBogons (some F) lines out.content) ∧
        (∀ x, (∃ n ∈ withCountry found, (IsV4 n.first ↔ IsV4 x)) → ¬ Covers (withCountry found) x → CoveredInFamily R x)) := by
  have hs := filter_selection h0 h (flt := ⟨familyArg (some F), none, none, 0⟩) (by intro l hl; cases hl) (InFamilyArg (some F)) (by
      intro n _
      show OfFamily (familyArg (some F)) (readBack n) ∧ _ ↔ _
      rw [ofFamily_arg]
      exact ⟨fun h => h.1, fun h => ⟨h, .inl ⟨rfl, rfl, rfl⟩⟩⟩)
  obtain ⟨found, steps, g1, hC, g2, g3⟩ := bogon_written h0 h ho hd hv ⟨familyArg (some F), none, none, 0⟩
  obtain ⟨found', steps', j1, j2⟩ := bogon_exact_partial h0 h ho hd hv ⟨familyArg (some F), none, none, 0⟩
  have hff : found' = found := by
    obtain ⟨s1, e1⟩ := g1 (steps + steps') (by omega)
    obtain ⟨s2, e2⟩ := j1 (steps + steps') (by omega)
    rw [e1] at e2
    simp only [Except.ok.injEq, Prod.mk.injEq] at e2
    exact e2.1.symm
  rw [hff] at j2
  rw [← g2] at hs
  refine ⟨found, hs, fun hok => ?_⟩
  obtain ⟨R, r1, r2, -⟩ := bog_exact hC hok _ [] _ _ rfl finv_init (by intro G d hd; cases hd)
  obtain ⟨s, st, r3⟩ := g3 R true r1
  obtain ⟨R', s', st', q1, -, q3, -⟩ := j2 hok
  have hRR : R' = R := by
    have e1 := r3 (st + st') (st + st') (by omega) (by omega)
    have e2 := q1 (st + st') (st + st') (by omega) (by omega)
    rw [e1] at e2
    simp only [Except.ok.injEq, Prod.mk.injEq] at e2
    exact e2.1.symm
  subst hRR
  -- the family
  have harg : ∀ n, Block n → (InFamilyArg (some F) n ↔ n.family = F) := by
    intro n hb
    have h4 := hb.fam
    unfold InFamilyArg
    cases F with
    | inet => exact h4.symm
    | inet6 =>
      cases hg : n.family with
      | inet => simp [h4.mp hg]
      | inet6 =>
        rw [hg] at h4
        simp only [reduceCtorEq, false_iff] at h4
        simp [h4]
  have hfF : ∀ n ∈ withCountry found, n.family = F := by
    intro n hn
    have hb := hC.blk n hn
    rw [← harg n hb]
    unfold withCountry at hn
    obtain ⟨k, -, hk, hsd⟩ := hs.2.2.2 n (List.mem_filter.mp hn).1
    exact (sameData_family hsd (some F)).mpr hk
  have hRF := bogL_family hC hok hfF _ _ _ (fun n hn => hn) (finv_init F).fam (by intro G _; cases G <;> decide) _ _ r1
  refine ⟨R', _, st, shows_all r2, fun n hn => (harg n (r2 n hn)).mpr (hRF n hn), ?_, q3⟩
  intro expo kind hu hnd fuel hfuel
  obtain ⟨u1, u2, u3, u4⟩ := hu
  rw [List.length_map] at u3 u4
  obtain ⟨f, h1, h2⟩ := ipset_nodup (expo := expo) (name := strBogons) (by decide) (family := familyArg (some F)) (by cases F <;> decide) r2 hnd (by
    intro n hn
    unfold InFamily
    rw [hRF n hn]
    cases F <;> simp [familyArg]) u3 u4 u2
  refine ⟨f, listNetworks_run (r3 fuel fuel hfuel hfuel) h1, ?_⟩
  unfold UnderstoodAs
  simp only
  rw [h2, makeTag_setName]
  cases F <;> rfl

/-- 100.0.0.0/8 in DE -/
def net100de : Network := de4 (ip4 100 0 0 0) (ip4 100 255 255 255) 8

/-- C72 violated: in a database with only 100.0.0.0/8 (DE), `list-bogons --family ipv4 --format ipset` ends with exit code 0, and
    its output cannot be loaded, because 0.0.0.0/1 is printed twice. -/
theorem list_bogons_violated_ipset : ∃ w f db steps out, Written 32 none none [.addNetwork net100de] demoEnv w f ∧ dbOpen f = .ok db ∧
    (∀ fuel, steps ≤ fuel → listBogons db .ipset expo1 (some .inet) fuel (newFile .pipe) = .ok (out, 0)) ∧ ipsetRestore out.content = none := by
  obtain ⟨w, f, db, h1, h2, h3, h4, h5⟩ := bogon_file (ops := [.addNetwork net100de]) (l := [net100de])
    (by intro op h; rw [List.mem_singleton] at h; subst h; exact de4_built (by decide +kernel))
    (by decide) (by decide +kernel) (by decide +kernel) (by decide) (by unfold AroundV4; decide +kernel)
  obtain ⟨found, steps, k1, hC, k2, k3⟩ := bogon_written (by decide) h1 h2 h4 h5 ⟨familyArg (some .inet), none, none, 0⟩
  rw [h3] at k2
  obtain ⟨s, st, r⟩ := k3 [mk4 (ip4 0 0 0 0) (ip4 127 255 255 255) 1, mk4 (ip4 0 0 0 0) (ip4 127 255 255 255) 1, mk4 (ip4 128 0 0 0) (ip4 255 255 255 255) 1] true
    (by rw [k2]; decide +kernel)
  have hw : ∃ out, writerRun .ipset expo1 (makeTag strBogons 2) 2 ([mk4 (ip4 0 0 0 0) (ip4 127 255 255 255) 1,
      mk4 (ip4 0 0 0 0) (ip4 127 255 255 255) 1, mk4 (ip4 128 0 0 0) (ip4 255 255 255 255) 1].map netText) (newFile .pipe) = .ok out ∧
      ipsetRestore out.content = none := ⟨_, rfl, by decide +kernel⟩
  obtain ⟨out, w1, w2⟩ := hw
  exact ⟨w, f, db, st, out, h1, h2, fun fuel hf => listNetworks_run (r fuel fuel hf hf) w1, w2⟩

/-- A database with 64.0.0.0/2 (DE) meets the hypotheses; the bogons 0.0.0.0/2 and 128.0.0.0/1 can be loaded. -/
example : ∃ w f db, Written 32 none none [.addNetwork net64_2] demoEnv w f ∧ dbOpen f = .ok db ∧
    ¬ TooDeep (· ∈ w.networks.networks) ∧ (∀ n ∈ w.networks.networks, ¬ AroundV4 n) ∧ BogonsOk [net64_2] ∧
    FormatOk .ipset expo1 (some .inet) .pipe 2 := by
  obtain ⟨w, f, db, h1, h2, h3, h4, h5⟩ := bogon_file (ops := [.addNetwork net64_2]) (l := [net64_2])
    (by intro op h; rw [List.mem_singleton] at h; subst h; exact de4_built (by decide +kernel))
    (by decide) (by decide +kernel) (by decide +kernel) (by decide) (by unfold AroundV4; decide +kernel)
  exact ⟨w, f, db, h1, h2, h4, h5, net64_ok.1, by unfold FormatOk; decide⟩

end Loc.Props
