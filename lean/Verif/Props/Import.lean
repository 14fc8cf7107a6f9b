import Verif.Lemmas.Import
import Verif.Props.Lookup
/-
C58: lookups in an imported database.  C59: when an import succeeds.  C60: ASes and countries of an imported database.
-/
namespace Loc.Props
open Loc Loc.Spec

/-! ## Imports as histories -/

theorem nodup_key {α β : Type} {g : α → β} : ∀ {l : List α}, (l.map g).Nodup → ∀ {x y : α}, x ∈ l → y ∈ l → g x = g y → x = y := by
  intro l
  induction l with
  | nil => intro _ x y hx; cases hx
  | cons a l ih =>
    intro h x y hx hy he
    rw [List.map_cons, List.nodup_cons] at h
    rcases List.mem_cons.mp hx with rfl | hx' <;> rcases List.mem_cons.mp hy with rfl | hy'
    · rfl
    · exact absurd (List.mem_map.mpr ⟨y, hy', he.symm⟩) h.1
    · exact (h.1 (List.mem_map.mpr ⟨x, hx', he⟩)).elim
    · exact ih h.2 hx' hy' he

theorem built_of_has {t : Tables} (ht : TablesOk t) {c : Nat → Network → Nat} {rows : List Network} (hr : AllNetworks t rows) {r : ImportRow}
    (h : r ∈ rows.map (importRowOf t c)) : ∃ a p, newNetwork a p = .ok r.network ∧ r.network ∈ rows ∧ r = importRowOf t c r.network := by
  obtain ⟨n, hn, rfl⟩ := List.mem_map.mp h
  obtain ⟨a, p, e⟩ := ht.made n ((hr.2 n).mp hn)
  exact ⟨a, p, e, hn, rfl⟩

theorem asRows_noNul {t : Tables} (ht : TablesOk t) : ∀ x ∈ importAsRows t, (0 : Byte) ∉ x.2 := by
  intro x hx
  obtain ⟨y, hy, rfl⟩ := List.mem_map.mp hx
  simp only
  split
  · rename_i z name m hf
    exact ht.overrideNames _ (List.mem_of_find?_eq_some hf) name rfl
  · exact ht.names y hy

theorem strOk_of {s : CStr} (h : (0 : Byte) ∉ s) : StrOk (some s) := by rintro x ⟨⟩; exact h

section
variable {K : Type} {ctz0 : Nat} {key1 key2 : Option K} {t : Tables} {c : Nat → Network → Nat} {rows : List Network}
  {vendor description license : CStr} {e : WEnv K} {w : Writer K} {f : Bytes}

theorem import_opOk (ht : TablesOk t) (hr : AllNetworks t rows) (h1 : (0 : Byte) ∉ vendor) (h2 : (0 : Byte) ∉ description)
    (h3 : (0 : Byte) ∉ license) (hn : ∀ r ∈ rows.map (importRowOf t c), importNetwork r = .ok (.ret (rowNetwork r))) :
    ∀ op ∈ importOps (K := K) t c rows vendor description license, OpOk ctz0 op := by
  intro op hop
  rcases mem_importOps hop with rfl | rfl | rfl | ⟨x, hx, rfl⟩ | ⟨r, hr', h⟩ | ⟨x, hx, rfl⟩
  · exact strOk_of h1
  · exact strOk_of h2
  · exact strOk_of h3
  · exact strOk_of (asRows_noNul ht x hx)
  · obtain ⟨a, p, hnew, -, -⟩ := built_of_has ht hr hr'
    obtain ⟨g1, g2, g3, g4, -⟩ := importNetwork_ret (ctz0 := ctz0) hnew (hn r hr')
    rcases h with rfl | rfl
    · exact .new hnew
    · exact ⟨g1, by rw [g2], g4⟩
  · obtain ⟨g1, g2, g3⟩ := ht.countries x hx
    exact ⟨strOk_of g1, strOk_of g2, strOk_of g3⟩

/-- An imported database is a written one. -/
theorem imported_written (h : Imported ctz0 key1 key2 t c rows vendor description license e w f) :
    Written ctz0 key1 key2 (importOps t c rows vendor description license) e w f ∧
    (∀ x ∈ importAsRows t, x.2 ≠ [] → x.1 < 2 ^ 31) ∧
    (∀ r ∈ rows.map (importRowOf t c), importNetwork r = .ok (.ret (rowNetwork r))) ∧
    (∀ x ∈ t.countries, ValidCC x.1 ∧ ∃ a b, x.2.1 = [a, b]) := by
  obtain ⟨ht, hr, h1, h2, h3, w0, w1, old, version, hw0, hi, he, hw, hl⟩ := h
  obtain ⟨g1, g2, g3, -, g5⟩ := importWrite_run hi
  exact ⟨⟨w1, old, version, ⟨import_opOk ht hr h1 h2 h3 g3, w0, hw0, g1⟩, he, hw, hl⟩, g2, g3, g5⟩

theorem importOps_noWrite : ∀ op ∈ importOps (K := K) t c rows vendor description license, IsWrite op = false := by
  intro op hop
  rcases mem_importOps hop with rfl | rfl | rfl | ⟨x, hx, rfl⟩ | ⟨r, hr', rfl | rfl⟩ | ⟨x, hx, rfl⟩ <;> rfl

theorem metaOps_stay {σ : Type} {step : σ → WOp K → σ} {g : Option CStr → WOp K} (hg : ∀ s x, step s (g x) = s) (x : CStr) (s : σ) :
    (metaOps g x).foldl step s = s := by
  unfold metaOps
  split
  · rfl
  · exact hg s _

theorem importOps_networks (hr : AllNetworks t rows) (hs : ∀ r ∈ rows.map (importRowOf t c), SameBlock (rowNetwork r) r.network) :
    networksOf (importOps (K := K) t c rows vendor description license) = (rows.map (importRowOf t c)).map rowNetwork := by
  unfold networksOf importOps
  rw [List.foldl_append, metaOps_stay (fun _ _ => rfl), List.foldl_append, metaOps_stay (fun _ _ => rfl),
    List.foldl_append, metaOps_stay (fun _ _ => rfl), List.foldl_append, foldl_stay (asOps _), List.foldl_append,
    netOps_networks, foldl_stay (countryOps _)]
  · rfl
  · intro s x hx
    obtain ⟨y, -, rfl⟩ := List.mem_map.mp hx
    rfl
  · intro m hm; cases hm
  · rw [List.pairwise_map]; exact hr.1
  · exact hs
  · intro s x hx
    obtain ⟨y, -, hy⟩ := List.mem_flatMap.mp hx
    split at hy
    · cases hy
    · cases List.mem_singleton.mp hy; rfl

theorem importOps_ases (k : BitVec 32) :
    asesOf (importOps (K := K) t c rows vendor description license) k =
      ((importAsRows t).find? fun x => !x.2.isEmpty && decide (BitVec.ofNat 32 x.1 = k)).map fun x => some x.2 := by
  unfold asesOf importOps
  rw [List.foldl_append, metaOps_stay (fun _ _ => rfl), List.foldl_append, metaOps_stay (fun _ _ => rfl),
    List.foldl_append, metaOps_stay (fun _ _ => rfl), List.foldl_append, List.foldl_append, foldl_stay (countryOps _),
    foldl_stay (netOps _), asOps_ases]
  · rfl
  · intro s x hx
    obtain ⟨y, -, hy⟩ := List.mem_flatMap.mp hx
    rcases List.mem_cons.mp hy with rfl | hy
    · rfl
    · cases List.mem_singleton.mp hy; rfl
  · intro s x hx
    obtain ⟨y, -, rfl⟩ := List.mem_map.mp hx
    rfl

theorem importOps_countries (hv : ∀ x ∈ t.countries, ValidCC x.1) (k : CStr) :
    countriesOf (importOps (K := K) t c rows vendor description license) k =
      (t.countries.find? fun x => decide (x.1 = k)).map fun x => (keptContinent (some x.2.1), some x.2.2) := by
  unfold countriesOf importOps
  rw [List.foldl_append, metaOps_stay (fun _ _ => rfl), List.foldl_append, metaOps_stay (fun _ _ => rfl),
    List.foldl_append, metaOps_stay (fun _ _ => rfl), List.foldl_append, List.foldl_append, foldl_stay (asOps _),
    foldl_stay (netOps _), countryOps_countries _ _ _ hv]
  · rfl
  · intro s x hx
    obtain ⟨y, -, hy⟩ := List.mem_flatMap.mp hx
    rcases List.mem_cons.mp hy with rfl | hy
    · rfl
    · cases List.mem_singleton.mp hy; rfl
  · intro s x hx
    obtain ⟨y, -, hy⟩ := List.mem_flatMap.mp hx
    split at hy
    · cases hy
    · cases List.mem_singleton.mp hy; rfl

theorem metaOps_codes {g : Option CStr → WOp K} (hg : ∀ x, codesAdded [g x] = []) (x : CStr) : codesAdded (metaOps g x) = [] := by
  unfold metaOps
  split
  · rfl
  · exact hg _

theorem importOps_codes (hv : ∀ x ∈ t.countries, ValidCC x.1) :
    codesAdded (importOps (K := K) t c rows vendor description license) = t.countries.map (·.1) := by
  have happ : ∀ a b : List (WOp K), codesAdded (a ++ b) = codesAdded a ++ codesAdded b := fun a b => List.filterMap_append
  have has : codesAdded (asOps (K := K) (importAsRows t)) = [] := by
    refine List.filterMap_eq_nil_iff.mpr fun x hx => ?_
    obtain ⟨y, -, hy⟩ := List.mem_flatMap.mp hx
    split at hy
    · cases hy
    · cases List.mem_singleton.mp hy; rfl
  have hnet : codesAdded (netOps (K := K) (rows.map (importRowOf t c))) = [] := by
    refine List.filterMap_eq_nil_iff.mpr fun x hx => ?_
    obtain ⟨y, -, hy⟩ := List.mem_flatMap.mp hx
    rcases List.mem_cons.mp hy with rfl | hy
    · rfl
    · cases List.mem_singleton.mp hy; rfl
  unfold importOps
  rw [happ, happ, happ, happ, happ, metaOps_codes (fun _ => rfl), metaOps_codes (fun _ => rfl), metaOps_codes (fun _ => rfl), has, hnet]
  simp only [List.nil_append]
  generalize t.countries = l at hv
  induction l with
  | nil => rfl
  | cons x l ih =>
    have := ih fun y hy => hv y (List.mem_cons_of_mem _ hy)
    show codesAdded (.addCountry (some x.1) (some x.2.1) (some x.2.2) :: countryOps l) = _
    unfold codesAdded at this ⊢
    rw [List.filterMap_cons]
    simp only [if_pos (hv x List.mem_cons_self), List.map_cons, this]

/-! ## C58 -/

theorem v4_of_contains {n : Network} (hb : Block n) {a : Addr} (hc : Contains n a) (hf : n.family = .inet) : IsV4 a := by
  have h1 := (block_v4_iff hb).mp hf
  have h2 := (contains_iff_path hb a).mp hc
  exact (isV4Mapped_iff a).mp ((isV4Mapped_iff_path a).mpr (h1.trans h2))

/-- A network of the tables contains the most specific network around an address exactly if it contains the address. -/
theorem sqlContains_iff (ht : TablesOk t) {a : Addr} {n k : Network} (hn : MostSpecific (HasNetwork t) a n) (hk : HasNetwork t k) :
    sqlContains k n = true ↔ Contains k a := by
  obtain ⟨hn1, hn2, hn3⟩ := hn
  obtain ⟨_, _, e1⟩ := ht.made n hn1
  obtain ⟨_, _, e2⟩ := ht.made k hk
  have bn := (new_canonical _ _ _ e1).1
  have bk := (new_canonical _ _ _ e2).1
  unfold sqlContains
  rw [Bool.and_eq_true, decide_eq_true_eq, is_subnet_iff bk bn]
  constructor
  · exact fun h => h.2 a hn2
  · intro h
    have p1 := (contains_iff_path bn a).mp hn2
    have p2 := (contains_iff_path bk a).mp h
    have hle := hn3 k hk h
    constructor
    · cases f1 : n.family with
      | inet =>
        cases f2 : k.family with
        | inet => rfl
        | inet6 => exact absurd (v4_of_contains bn hn2 f1) (ht.separate k hk f2 a h)
      | inet6 =>
        cases f2 : k.family with
        | inet6 => rfl
        | inet => exact absurd (v4_of_contains bk h f2) (ht.separate n hn1 f1 a hn2)
    · rw [inside_iff_path bn bk]
      refine List.prefix_of_prefix_length_le p2 p1 ?_
      rw [length_path bk.le, length_path bn.le]
      exact hle

theorem coalesce_or {α : Type} (new : Option Marks) (old : Marks) (g : Marks → Option α)
    (hg : ∀ m : Marks, g ⟨m.country.or old.country, m.proxy.or old.proxy, m.satellite.or old.satellite, m.anycast.or old.anycast, m.drop.or old.drop⟩ =
      (g m).or (g old)) : g (coalesceMarks new old) = (new.bind g).or (g old) := by
  cases new with
  | none => rfl
  | some m => exact hg m

theorem firstOf_cons {α : Type} (x : Option α) (l : List (Option α)) : firstOf (x :: l) = x.or (firstOf l) := by
  cases x <;> rfl

/-- The row of the most specific network around an address is what the tables say about the address. -/
theorem importRow_says (ht : TablesOk t) {a : Addr} {n : Network} (hn : MostSpecific (HasNetwork t) a n) :
    TablesSay t a (importRowOf t c n).autnum (importRowOf t c n).marks := by
  have hC := fun {k} (hk : HasNetwork t k) => sqlContains_iff ht hn hk
  refine ⟨sqlBest_says _ fun x hx => hC (.inl (List.mem_map_of_mem hx)),
    sqlBest (c 1 n) t.networks n, sqlBest (c 2 n) t.geofeeds n, sqlBest (c 3 n) t.feeds n,
    sqlOfAs (c 4 n) t.autnumFeeds (sqlBest (c 0 n) t.announcements n), sqlBest (c 5 n) t.overrides n,
    sqlOfAs (c 6 n) t.autnumOverrides (sqlBest (c 0 n) t.announcements n),
    sqlBest_says _ fun x hx => hC (.inr (.inl (List.mem_map_of_mem hx))),
    sqlBest_says _ fun x hx => hC (.inr (.inr (.inr (.inr (ht.geofeeds x hx))))),
    sqlBest_says _ fun x hx => hC (.inr (.inr (.inl (List.mem_map_of_mem hx)))),
    sqlOfAs_says _ _ _,
    sqlBest_says _ fun x hx => hC (.inr (.inr (.inr (.inl (List.mem_map_of_mem hx))))),
    sqlOfAs_says _ _ _, ?_⟩
  simp only [importRowOf]
  generalize sqlBest (c 1 n) t.networks n = registry
  generalize sqlBest (c 2 n) t.geofeeds n = geofeed
  generalize sqlBest (c 3 n) t.feeds n = feed
  generalize sqlBest (c 5 n) t.overrides n = override
  generalize sqlOfAs (c 4 n) t.autnumFeeds (sqlBest (c 0 n) t.announcements n) = af
  generalize sqlOfAs (c 6 n) t.autnumOverrides (sqlBest (c 0 n) t.announcements n) = ao
  simp only [List.map_cons, List.map_nil, List.cons_append, List.nil_append, firstOf_cons]
  refine ⟨?_, ?_, ?_, ?_, ?_⟩
  · rw [coalesce_or _ _ (·.country) (fun _ => rfl), coalesce_or _ _ (·.country) (fun _ => rfl),
      coalesce_or _ _ (·.country) (fun _ => rfl), coalesce_or _ _ (·.country) (fun _ => rfl)]
    have : (replaceCountry geofeed (replaceCountry registry ⟨none, none, none, none, none⟩)).country =
        ((geofeed.or (registry.or (firstOf []))).join).or (firstOf []) := by
      cases geofeed with
      | none => cases registry with
        | none => rfl
        | some r => cases r <;> rfl
      | some r => cases r <;> rfl
    rw [this]
  all_goals
    have hz : ∀ m, (replaceCountry geofeed (replaceCountry registry m)).proxy = m.proxy ∧
        (replaceCountry geofeed (replaceCountry registry m)).satellite = m.satellite ∧
        (replaceCountry geofeed (replaceCountry registry m)).anycast = m.anycast ∧
        (replaceCountry geofeed (replaceCountry registry m)).drop = m.drop := by
      intro m; cases geofeed <;> cases registry <;> exact ⟨rfl, rfl, rfl, rfl⟩
  · rw [coalesce_or _ _ (·.proxy) (fun _ => rfl), coalesce_or _ _ (·.proxy) (fun _ => rfl),
      coalesce_or _ _ (·.proxy) (fun _ => rfl), coalesce_or _ _ (·.proxy) (fun _ => rfl), (hz _).1]
    rfl
  · rw [coalesce_or _ _ (·.satellite) (fun _ => rfl), coalesce_or _ _ (·.satellite) (fun _ => rfl),
      coalesce_or _ _ (·.satellite) (fun _ => rfl), coalesce_or _ _ (·.satellite) (fun _ => rfl), (hz _).2.1]
    rfl
  · rw [coalesce_or _ _ (·.anycast) (fun _ => rfl), coalesce_or _ _ (·.anycast) (fun _ => rfl),
      coalesce_or _ _ (·.anycast) (fun _ => rfl), coalesce_or _ _ (·.anycast) (fun _ => rfl), (hz _).2.2.1]
    rfl
  · rw [coalesce_or _ _ (·.drop) (fun _ => rfl), coalesce_or _ _ (·.drop) (fun _ => rfl),
      coalesce_or _ _ (·.drop) (fun _ => rfl), coalesce_or _ _ (·.drop) (fun _ => rfl), (hz _).2.2.2]
    rfl

theorem carries_congr {m n : Network} {asn : Option Nat} {k : Marks} (h : props m = props n) (hc : Carries n asn k) : Carries m asn k := by
  obtain ⟨h1, h2, h3⟩ := hc
  have e2 : m.asn = n.asn := congrArg (fun x => x.2.1) h
  have e3 : m.flags = n.flags := congrArg (fun x => x.2.2) h
  exact ⟨by rw [h]; exact h1, by rw [e2]; exact h2, by rw [e3]; exact h3⟩

theorem flags_small (p s y d : Bool) :
    ((if p then 1 else 0) ||| (if s then 2 else 0) ||| (if y then 4 else 0) ||| (if d then 8 else 0) : BitVec 32).toNat < 2 ^ 16 := by
  revert p s y d; decide

/-- The networks of the rows after the setters were called. -/
theorem import_rows (h : Imported ctz0 key1 key2 t c rows vendor description license e w f) :
    networksOf (importOps (K := K) t c rows vendor description license) = (rows.map (importRowOf t c)).map rowNetwork ∧
    ∀ r ∈ rows.map (importRowOf t c), (rowNetwork r).first = r.network.first ∧ (rowNetwork r).last = r.network.last ∧
      (rowNetwork r).pfx = r.network.pfx ∧ Carries (rowNetwork r) r.autnum r.marks ∧ HasNetwork t r.network ∧ r = importRowOf t c r.network := by
  obtain ⟨-, -, hnet, -⟩ := imported_written h
  obtain ⟨ht, hr, -⟩ := h
  have hret : ∀ r ∈ rows.map (importRowOf t c), (rowNetwork r).first = r.network.first ∧ (rowNetwork r).last = r.network.last ∧
      (rowNetwork r).pfx = r.network.pfx ∧ Carries (rowNetwork r) r.autnum r.marks ∧ HasNetwork t r.network ∧ r = importRowOf t c r.network := by
    intro r hr'
    obtain ⟨a, p, hnew, hmem, heq⟩ := built_of_has ht hr hr'
    obtain ⟨-, g1, g2, g3, g4⟩ := importNetwork_ret (ctz0 := ctz0) hnew (hnet r hr')
    exact ⟨g1, g2, g3, g4, (hr.2 _).mp hmem, heq⟩
  exact ⟨importOps_networks hr fun r hr' => ⟨by rw [(hret r hr').1], (hret r hr').2.2.1⟩, hret⟩

/-- A lookup in an imported database only ever returns what the tables say about the address.  Missing: that the lookup
    returns something for every address of the tables, see C16. -/
theorem import_lookup_partial (h0 : 8 ≤ ctz0) (h : Imported ctz0 key1 key2 t c rows vendor description license e w f) {db : Db}
    (ho : dbOpen f = .ok db) {a : Addr} {m : Network} (hl : lookup db a = .ok (.ok (some m))) :
    Contains m a ∧ ∃ asn marks, TablesSay t a asn marks ∧ Carries m asn marks := by
  obtain ⟨hw, -⟩ := imported_written h
  obtain ⟨hN, hret⟩ := import_rows h
  obtain ⟨ht, hr, -⟩ := h
  obtain ⟨hc, n, ⟨hn1, hn2, hn3⟩, hp⟩ := lookup_sound_added h0 hw importOps_noWrite (by
    intro n hn
    rw [hN] at hn
    obtain ⟨r, hr', rfl⟩ := List.mem_map.mp hn
    rw [(hret r hr').2.2.2.1.2.2]
    have := flags_small (decide (r.marks.proxy = some true)) (decide (r.marks.satellite = some true)) (decide (r.marks.anycast = some true))
      (decide (r.marks.drop = some true))
    simpa only [decide_eq_true_eq] using this) ho hl
  refine ⟨hc, ?_⟩
  rw [hN] at hn1 hn3
  obtain ⟨r, hr', rfl⟩ := List.mem_map.mp hn1
  obtain ⟨e1, e2, e3, hcar, hmem, heq⟩ := hret r hr'
  have hms : MostSpecific (HasNetwork t) a r.network := by
    refine ⟨hmem, by unfold Contains at hn2 ⊢; rw [← e1, ← e2]; exact hn2, fun k hk hka => ?_⟩
    have hkr : importRowOf t c k ∈ rows.map (importRowOf t c) := List.mem_map_of_mem ((hr.2 k).mpr hk)
    obtain ⟨f1, f2, f3, -⟩ := hret _ hkr
    have := hn3 (rowNetwork (importRowOf t c k)) (List.mem_map_of_mem hkr) (by
      unfold Contains at hka ⊢; rw [f1, f2]; exact hka)
    rw [f3, e3] at this
    exact this
  refine ⟨r.autnum, r.marks, ?_, carries_congr hp hcar⟩
  rw [heq]
  exact importRow_says ht hms

/-- For an address that is in no network of the tables, nothing is found. -/
theorem import_lookup_unknown (h0 : 8 ≤ ctz0) (h : Imported ctz0 key1 key2 t c rows vendor description license e w f) {db : Db}
    (ho : dbOpen f = .ok db) {a : Addr} (ha : ∀ n, HasNetwork t n → ¬ Contains n a) : lookup db a = .ok (.ok none) := by
  obtain ⟨hw, -⟩ := imported_written h
  obtain ⟨hN, hret⟩ := import_rows h
  have hnone : ¬ ∃ n ∈ w.networks.networks, Contains n a := by
    intro hx
    obtain ⟨n, hn1, hn2⟩ := (write_preserves_lookup h0 hw importOps_noWrite a).2.mpr hx
    rw [hN] at hn1
    obtain ⟨r, hr', rfl⟩ := List.mem_map.mp hn1
    obtain ⟨e1, e2, -, -, hmem, -⟩ := hret r hr'
    exact ha _ hmem (by unfold Contains at hn2 ⊢; rw [← e1, ← e2]; exact hn2)
  have hno : ¬ StoredHost (· ∈ w.networks.networks) a := by
    rintro ⟨k, hk, hh, hv⟩
    obtain ⟨db', ho', hh'⟩ := written_holds h0 hw
    have hb := ((mem_networks_wf hh'.wf).mp hk).1
    have := hb.last_eq
    exact hnone ⟨k, hk, by unfold Contains; omega⟩
  obtain ⟨r, hr, -⟩ := lookup_exact h0 hw ho hno
  cases r with
  | none => exact hr
  | some m =>
    obtain ⟨-, hc, k, hk, -⟩ := lookup_sound h0 hw ho hr
    exact absurd ⟨k, hk.1, hk.2.1⟩ hnone

/-! ## C60 -/

/-- ASes: exactly those with a name, under the name that the tables give. -/
theorem import_ases (h0 : 8 ≤ ctz0) (h : Imported ctz0 key1 key2 t c rows vendor description license e w f) :
    ∃ db, dbOpen f = .ok db ∧ ∀ number, getAs db number = .ok ((NameOf t number.toNat).map fun name => ⟨number, some name⟩) := by
  obtain ⟨hw, hlt, -⟩ := imported_written h
  obtain ⟨ht, -⟩ := h
  obtain ⟨db, ho, hdb⟩ := as_roundtrip h0 hw
  refine ⟨db, ho, fun number => ?_⟩
  rw [hdb number, importOps_ases]
  have hkeys : ∀ x ∈ t.autnums, ∀ y ∈ t.autnums, x.1 = y.1 → x = y := fun x hx y hy hxy =>
    nodup_key ht.keys hx hy hxy
  cases hf : (importAsRows t).find? fun x => !x.2.isEmpty && decide (BitVec.ofNat 32 x.1 = number) with
  | none =>
    have hnone : NameOf t number.toNat = none := by
      unfold NameOf
      split
      · rfl
      · rename_i x name hx
        have hmem := List.mem_of_find?_eq_some hx
        have hnum : x = number.toNat := by simpa using List.find?_some hx
        subst hnum
        refine if_pos (Classical.byContradiction fun hne => ?_)
        have := List.find?_eq_none.mp hf _ (List.mem_map_of_mem hmem)
        apply this
        simp only [Bool.and_eq_true, Bool.not_eq_true', List.isEmpty_eq_false_iff, decide_eq_true_eq, BitVec.ofNat_toNat, BitVec.setWidth_eq, and_true]
        exact hne
    rw [hnone]; rfl
  | some y =>
    have hy := List.mem_of_find?_eq_some hf
    have hp := List.find?_some hf
    simp only [Bool.and_eq_true, Bool.not_eq_true', List.isEmpty_eq_false_iff, decide_eq_true_eq] at hp
    have hl := hlt y hy hp.1
    obtain ⟨x, hx, rfl⟩ := List.mem_map.mp hy
    have hnum : number.toNat = x.1 := by
      rw [← hp.2, BitVec.toNat_ofNat]; exact Nat.mod_eq_of_lt (by simp only at hl; omega)
    have hfind : t.autnums.find? (fun z => decide (z.1 = number.toNat)) = some x := by
      cases hz : t.autnums.find? (fun z => decide (z.1 = number.toNat)) with
      | none => exact absurd (List.find?_eq_none.mp hz x hx) (by simp [hnum])
      | some z =>
        have h1 : z.1 = number.toNat := by simpa using List.find?_some hz
        rw [hkeys z (List.mem_of_find?_eq_some hz) x hx (h1.trans hnum)]
    unfold NameOf
    rw [hfind]
    simp only [Option.map_some, hnum]
    rw [if_neg]
    · rfl
    · exact hp.1

/-- Countries: exactly those of the tables. -/
theorem import_countries (h0 : 8 ≤ ctz0) (h : Imported ctz0 key1 key2 t c rows vendor description license e w f) :
    ∃ db, dbOpen f = .ok db ∧
      (∀ code continent name, (code, continent, name) ∈ t.countries → ∃ k, getCountry db (some code) = .ok (.found k) ∧
        countryGetCode k = code ∧ countryContinent k = some continent ∧ k.name = some name) ∧
      ∀ code, ValidCC code → code ∉ t.countries.map (·.1) → getCountry db (some code) = .ok .missing := by
  obtain ⟨hw, -, -, hv⟩ := imported_written h
  obtain ⟨ht, -⟩ := h
  have hv1 := fun x hx => (hv x hx).1
  have hC := importOps_countries (K := K) (c := c) (rows := rows) (vendor := vendor) (description := description) (license := license) hv1
  obtain ⟨db, ho, hdb⟩ := country_roundtrip_partial h0 hw (by
    rw [importOps_codes hv1]
    exact ht.sorted.imp fun h => Nat.le_of_lt h) (by
    intro code continent name hc
    rw [hC] at hc
    cases hf : t.countries.find? (fun x => decide (x.1 = code)) with
    | none => rw [hf] at hc; cases hc
    | some y =>
      rw [hf] at hc
      obtain ⟨-, a, b, hab⟩ := hv y (List.mem_of_find?_eq_some hf)
      simp only [Option.map_some, hab, keptContinent] at hc
      cases hc
      exact fun h => nomatch h)
  refine ⟨db, ho, fun code continent name hm => ?_, fun code hcode hno => ?_⟩
  · have hcode := hv1 _ hm
    have := hdb code hcode
    unfold CountryRoundTrip at this
    have hfind : t.countries.find? (fun x => decide (x.1 = code)) = some (code, continent, name) := by
      cases hz : t.countries.find? (fun z => decide (z.1 = code)) with
      | none => exact absurd (List.find?_eq_none.mp hz _ hm) (by simp)
      | some z =>
        have h1 : z.1 = code := by simpa using List.find?_some hz
        have hnd : (t.countries.map (·.1)).Nodup := ht.sorted.imp fun h he => by rw [he] at h; exact Nat.lt_irrefl _ h
        exact congrArg some (nodup_key hnd (List.mem_of_find?_eq_some hz) hm h1)
    rw [hC, hfind] at this
    obtain ⟨-, a, b, hab⟩ := hv _ hm
    simp only at hab
    subst hab
    obtain ⟨k, g1, g2, g3, g4⟩ := this
    exact ⟨k, g1, g2, g3, g4⟩
  · have := hdb code hcode
    unfold CountryRoundTrip at this
    have hfind : t.countries.find? (fun x => decide (x.1 = code)) = none := by
      refine List.find?_eq_none.mpr fun x hx he => hno ?_
      exact List.mem_map.mpr ⟨x, hx, of_decide_eq_true he⟩
    rw [hC, hfind] at this
    exact this

theorem lastSet_import {g : WOp K → Option CStr} (hg : ∀ op, g op ≠ none → IsAddition op = false)
    (hn : ∀ n n', g (.changeNetwork n n') = none) (hc : ∀ a b d, g (.addCountry a b d) = none) :
    lastSet g (importOps (K := K) t c rows vendor description license) =
      lastSet g (metaOps .vendor vendor ++ (metaOps .description description ++ metaOps .license license)) := by
  have hadd : ∀ op : WOp K, IsAddition op = true → g op = none := by
    intro op h
    cases hgo : g op with
    | none => rfl
    | some x => rw [(hg op (by rw [hgo]; exact fun h => nomatch h))] at h; cases h
  unfold lastSet importOps
  simp only [List.foldl_append]
  rw [foldl_stay (countryOps _), foldl_stay (netOps _), foldl_stay (asOps _)]
  · intro s x hx
    obtain ⟨y, -, hy⟩ := List.mem_flatMap.mp hx
    split at hy
    · cases hy
    · cases List.mem_singleton.mp hy; rw [hadd _ rfl]
  · intro s x hx
    obtain ⟨y, -, hy⟩ := List.mem_flatMap.mp hx
    rcases List.mem_cons.mp hy with rfl | hy
    · rw [hadd _ rfl]
    · cases List.mem_singleton.mp hy; rw [hn]
  · intro s x hx
    obtain ⟨y, -, rfl⟩ := List.mem_map.mp hx
    rw [hc]

/-- Vendor, description and license are the given ones. -/
theorem import_metadata (h0 : 8 ≤ ctz0) (h : Imported ctz0 key1 key2 t c rows vendor description license e w f) :
    ∃ db, dbOpen f = .ok db ∧ dbVendor db = .ok (some vendor) ∧ dbDescription db = .ok (some description) ∧
      dbLicense db = .ok (some license) := by
  obtain ⟨hw, -⟩ := imported_written h
  obtain ⟨db, ho, h1, h2, h3, -⟩ := metadata_roundtrip h0 hw
  have e1 : lastSet vendorCall (importOps (K := K) t c rows vendor description license) = vendor := by
    rw [lastSet_import (by intro op; cases op <;> simp [vendorCall, IsAddition]) (fun _ _ => rfl) (fun _ _ _ => rfl)]
    cases vendor <;> cases description <;> cases license <;> rfl
  have e2 : lastSet descriptionCall (importOps (K := K) t c rows vendor description license) = description := by
    rw [lastSet_import (by intro op; cases op <;> simp [descriptionCall, IsAddition]) (fun _ _ => rfl) (fun _ _ _ => rfl)]
    cases vendor <;> cases description <;> cases license <;> rfl
  have e3 : lastSet licenseCall (importOps (K := K) t c rows vendor description license) = license := by
    rw [lastSet_import (by intro op; cases op <;> simp [licenseCall, IsAddition]) (fun _ _ => rfl) (fun _ _ _ => rfl)]
    cases vendor <;> cases description <;> cases license <;> rfl
  rw [e1] at h1
  rw [e2] at h2
  rw [e3] at h3
  exact ⟨db, ho, h1, h2, h3⟩

/-! ## C59 -/

theorem sqlBest_mem {α : Type} {c : Nat} {t : List (Network × α)} {n : Network} {x : α} (h : sqlBest c t n = some x) :
    ∃ m, (m, x) ∈ t := by
  unfold sqlBest at h
  obtain ⟨z, hz, rfl⟩ := Option.map_eq_some_iff.mp h
  have := List.mem_of_getElem? hz
  exact ⟨z.1, (List.mem_filter.mp (List.mem_filter.mp this).1).1⟩

theorem sqlOfAs_mem {α : Type} {c : Nat} {t : List (Nat × α)} {asn : Option Nat} {x : α} (h : sqlOfAs c t asn = some x) :
    ∃ k, (k, x) ∈ t := by
  cases asn with
  | none => cases h
  | some k =>
    unfold sqlOfAs at h
    obtain ⟨z, hz, rfl⟩ := Option.map_eq_some_iff.mp h
    exact ⟨z.1, (List.mem_filter.mp (List.mem_of_getElem? hz)).1⟩

theorem codeOk_coalesce {new : Option Marks} {old : Marks} (h1 : ∀ m, new = some m → CodeOk m.country) (h2 : CodeOk old.country) :
    CodeOk (coalesceMarks new old).country := by
  cases new with
  | none => exact h2
  | some m =>
    have := h1 m rfl
    simp only [coalesceMarks]
    cases hm : m.country with
    | none => simpa using h2
    | some s => rw [hm] at this; simpa using this

theorem codeOk_replace {new : Option (Option CStr)} {old : Marks} (h1 : ∀ x, new = some x → CodeOk x) (h2 : CodeOk old.country) :
    CodeOk (replaceCountry new old).country := by
  cases new with
  | none => exact h2
  | some x => exact h1 x rfl

theorem usable_row (hu : Usable (2 ^ 31) t) (n : Network) : CodeOk (importRowOf t c n).marks.country ∧ ∀ k, (importRowOf t c n).autnum = some k → k < 2 ^ 31 := by
  constructor
  · simp only [importRowOf]
    refine codeOk_coalesce ?_ (codeOk_coalesce ?_ (codeOk_coalesce ?_ (codeOk_coalesce ?_ (codeOk_replace ?_ (codeOk_replace ?_ ?_)))))
    · intro m hm
      obtain ⟨x, hx, rfl⟩ := Option.map_eq_some_iff.mp hm
      obtain ⟨k, hk⟩ := sqlOfAs_mem hx
      exact hu.autnumOverrides _ hk
    · intro m hm
      obtain ⟨k, hk⟩ := sqlBest_mem hm
      exact hu.overrides _ hk
    · intro m hm
      obtain ⟨k, hk⟩ := sqlOfAs_mem hm
      exact hu.autnumFeeds _ hk
    · intro m hm
      obtain ⟨k, hk⟩ := sqlBest_mem hm
      exact hu.feeds _ hk
    · intro m hm
      obtain ⟨k, hk⟩ := sqlBest_mem hm
      exact hu.geofeeds _ hk
    · intro m hm
      obtain ⟨k, hk⟩ := sqlBest_mem hm
      exact hu.networks _ hk
    · intro s hs; cases hs
  · intro k hk
    obtain ⟨m, hm⟩ := sqlBest_mem hk
    exact hu.announcements _ hm

theorem importNetwork_total {r : ImportRow} (h1 : CodeOk r.marks.country) (h2 : ∀ k, r.autnum = some k → k < 2 ^ 31) :
    importNetwork r = .ok (.ret (rowNetwork r)) := by
  have : ∃ n, importNetwork r = .ok (.ret n) := by
    obtain ⟨n1, e1⟩ : ∃ n, importCountryCode r.network r.marks.country = .ok (.ret n) := by
      unfold importCountryCode
      cases hc : r.marks.country with
      | none => exact ⟨_, rfl⟩
      | some s =>
        simp only
        rcases h1 s hc with rfl | hv
        · exact ⟨_, rfl⟩
        · have hv' := (ccIsValid_iff s).mpr hv
          obtain ⟨c0, c1, rfl, -⟩ := hv
          have : setCountryCode r.network (some [c0, c1]) = .ok { r.network with cc0 := c0, cc1 := c1 } := by
            simp [setCountryCode, hv']
          rw [if_neg (by simp), this]
          exact ⟨_, rfl⟩
    obtain ⟨n2, e2⟩ : ∃ n, importAsn n1 r.autnum = .ret n := by
      unfold importAsn
      cases hk : r.autnum with
      | none => exact ⟨_, rfl⟩
      | some k =>
        have := h2 k hk
        simp only
        split
        · exact ⟨_, rfl⟩
        · unfold pySetAsn
          rw [if_neg (by omega)]
          exact ⟨_, rfl⟩
    unfold importNetwork
    rw [e1]; simp only; rw [e2]
    exact ⟨_, rfl⟩
  obtain ⟨n, hn⟩ := this
  rw [rowNetwork_eq hn]; exact hn

/-- With usable values in the tables, an import succeeds. -/
theorem import_succeeds_partial (h0 : 8 ≤ ctz0) (ht : TablesOk t) (hr : AllNetworks t rows) (hu : Usable (2 ^ 31) t)
    (h1 : (0 : Byte) ∉ vendor ∧ vendor.length < 512 * 1024) (h2 : (0 : Byte) ∉ description ∧ description.length < 512 * 1024)
    (h3 : (0 : Byte) ∉ license ∧ license.length < 512 * 1024) :
    ∃ w0 w : Writer K, writerNew key1 key2 = .ok w0 ∧ importWrite t c rows vendor description license w0 = .ok (.ret w) := by
  obtain ⟨w0, -, w0', hw0, -⟩ := writes_total h0 key1 key2 ([] : List (WOp K)) (by simp) (by simp)
  refine ⟨w0', ?_⟩
  have i0 := winv_new ctz0 key1 key2 hw0
  obtain ⟨w1, e1, i1⟩ := importMeta_total (f := setVendor) (g := .vendor) (by intro w x r hx; simp only [setVendor, hx]; exact ⟨_, rfl⟩)
    (by intro w w' s hs; rw [wstep, hs]) i0 h1.1 h1.2 (strOk_of h1.1)
  obtain ⟨w2, e2, i2⟩ := importMeta_total (f := setDescription) (g := .description) (by intro w x r hx; simp only [setDescription, hx]; exact ⟨_, rfl⟩)
    (by intro w w' s hs; rw [wstep, hs]) i1 h2.1 h2.2 (strOk_of h2.1)
  obtain ⟨w3, e3, i3⟩ := importMeta_total (f := setLicense) (g := .license) (by intro w x r hx; simp only [setLicense, hx]; exact ⟨_, rfl⟩)
    (by intro w w' s hs; rw [wstep, hs]) i2 h3.1 h3.2 (strOk_of h3.1)
  obtain ⟨w4, e4⟩ := importAses_total (l := importAsRows t) w3 (by
    intro x hx _
    obtain ⟨y, hy, rfl⟩ := List.mem_map.mp hx
    exact hu.autnums y hy)
  have r4 := (importAses_run e4).1
  have i4 := winv_run _ i3 (by
    intro op hop
    obtain ⟨y, hy, hop⟩ := List.mem_flatMap.mp hop
    split at hop
    · cases hop
    · cases List.mem_singleton.mp hop
      exact strOk_of (asRows_noNul ht y hy)) r4
  have hrow : ∀ r ∈ rows.map (importRowOf t c), importNetwork r = .ok (.ret (rowNetwork r)) := by
    intro r hr'
    obtain ⟨n, -, rfl⟩ := List.mem_map.mp hr'
    exact importNetwork_total (usable_row hu n).1 (usable_row hu n).2
  have hempty : ∀ k, k ∈ w4.networks.networks ↔ k ∈ ([] : List Network) := by
    have a1 := importMeta_run (g := .vendor) (by intro w w' s hs; rw [wstep, hs]) e1
    have a2 := importMeta_run (g := .description) (by intro w w' s hs; rw [wstep, hs]) e2
    have a3 := importMeta_run (g := .license) (by intro w w' s hs; rw [wstep, hs]) e3
    have hops : wrun w0' (metaOps .vendor vendor ++ (metaOps .description description ++ (metaOps .license license ++ asOps (importAsRows t)))) = .ok w4 := by
      rw [wrun_append, a1]; simp only
      rw [wrun_append, a2]; simp only
      rw [wrun_append, a3]; simp only
      exact r4
    have hm := run_networks h0 _ i0 (l := []) (by
      intro k
      unfold writerNew at hw0
      split at hw0
      · cases hw0
      · cases hw0; exact Iff.rfl) (by
      intro op hop
      refine import_opOk (c := c) ht hr h1.1 h2.1 h3.1 hrow op ?_
      unfold importOps
      simp only [List.mem_append] at hop ⊢
      rcases hop with hop | hop | hop | hop <;> simp only [hop, true_or, or_true]) (by
      intro op hop
      refine importOps_noWrite (t := t) (c := c) (rows := rows) (vendor := vendor) (description := description) (license := license) op ?_
      unfold importOps
      simp only [List.mem_append] at hop ⊢
      rcases hop with hop | hop | hop | hop <;> simp only [hop, true_or, or_true]) hops
    intro k
    rw [hm k, List.foldl_append, metaOps_stay (fun _ _ => rfl), List.foldl_append, metaOps_stay (fun _ _ => rfl),
      List.foldl_append, metaOps_stay (fun _ _ => rfl), foldl_stay (asOps _)]
    intro s x hx
    obtain ⟨y, -, hy⟩ := List.mem_flatMap.mp hx
    split at hy
    · cases hy
    · cases List.mem_singleton.mp hy; rfl
  obtain ⟨w5, e5⟩ := importNetworks_total h0 (rs := rows.map (importRowOf t c)) i4 hempty (by intro m hm; cases hm)
    (by rw [List.pairwise_map]; exact hr.1) (by
      intro r hr'
      obtain ⟨a, p, hnew, -, -⟩ := built_of_has ht hr hr'
      obtain ⟨g1, g2, g3, g4, -⟩ := importNetwork_ret (ctz0 := ctz0) hnew (hrow r hr')
      exact ⟨.new hnew, hrow r hr', g1, by rw [g2], g4⟩)
  obtain ⟨w6, e6⟩ := importCountries_total (l := t.countries) w5 (by
    intro x hx
    obtain ⟨g1, g2⟩ := hu.countries x hx
    refine ⟨g1, ?_⟩
    match hx2 : x.2.1, g2 with
    | [a, b], _ => exact ⟨a, b, rfl⟩)
  refine ⟨w6, hw0, ?_⟩
  unfold importWrite
  rw [e1]; simp only
  rw [e2]; simp only
  rw [e3]; simp only
  rw [e4]; simp only
  rw [if_neg, e5]
  · exact e6
  · intro hany
    obtain ⟨r, hr', hk⟩ := List.any_eq_true.mp hany
    obtain ⟨n, -, rfl⟩ := List.mem_map.mp hr'
    cases ha : (importRowOf t c n).autnum with
    | none => rw [ha] at hk; cases hk
    | some k =>
      rw [ha] at hk
      have := (usable_row hu n).2 k ha
      simp only [Option.any_some, decide_eq_true_eq] at hk
      omega

/-- The full claim: with valid country codes and AS numbers that fit into 32 bits, an import succeeds. -/
def ImportSucceeds (t : Tables) : Prop :=
  TablesOk t → Usable (2 ^ 32) t → ∀ (c : Nat → Network → Nat) (rows : List Network), AllNetworks t rows →
    ∀ w0 : Writer Unit, writerNew none none = .ok w0 → ∃ w, importWrite t c rows [] [] [] w0 = .ok (.ret w)

theorem sqlBest_self {α : Type} (c : Nat) {t : List (Network × α)} {n : Network} {x : α} (hx : (n, x) ∈ t) (hb : ∀ y ∈ t, Block y.1) :
    ∃ m y, (m, y) ∈ t ∧ SameBlock m n ∧ sqlBest c t n = some y := by
  have hbn := hb _ hx
  have hself : sqlContains n n = true := by
    unfold sqlContains
    rw [Bool.and_eq_true]
    exact ⟨decide_eq_true rfl, (is_subnet_iff hbn hbn).mpr fun _ h => h⟩
  have hmem : (n, x) ∈ t.filter fun x => sqlContains x.1 n := List.mem_filter.mpr ⟨hx, hself⟩
  have hle : ∀ y ∈ t, sqlContains y.1 n = true → y.1.pfx ≤ n.pfx := by
    intro y hy h
    unfold sqlContains at h
    rw [Bool.and_eq_true] at h
    have := (inside_iff_path hbn (hb y hy)).mp ((is_subnet_iff (hb y hy) hbn).mp h.2)
    have := this.length_le
    rwa [length_path (hb y hy).le, length_path hbn.le] at this
  have hne : ((t.filter fun x => sqlContains x.1 n).filter fun x =>
      (t.filter fun x => sqlContains x.1 n).all fun y => decide (y.1.pfx ≤ x.1.pfx)) ≠ [] := by
    refine List.ne_nil_of_mem (List.mem_filter.mpr ⟨hmem, ?_⟩)
    refine List.all_eq_true.mpr fun y hy => decide_eq_true ?_
    obtain ⟨h1, h2⟩ := List.mem_filter.mp hy
    exact hle y h1 h2
  obtain ⟨z, hz, hp⟩ := sqlPick_mem c hne
  obtain ⟨hz1, hz2⟩ := List.mem_filter.mp hz
  obtain ⟨hz3, hz4⟩ := List.mem_filter.mp hz1
  refine ⟨z.1, z.2, hz3, ?_, by unfold sqlBest; simp only [hp, Option.map_some]⟩
  have h1 := hle z hz3 hz4
  have h2 : n.pfx ≤ z.1.pfx := of_decide_eq_true (List.all_eq_true.mp hz2 _ hmem)
  unfold sqlContains at hz4
  rw [Bool.and_eq_true] at hz4
  have hpath := (inside_iff_path hbn (hb z hz3)).mp ((is_subnet_iff (hb z hz3) hbn).mp hz4.2)
  rw [sameBlock_iff_path (hb z hz3) hbn]
  refine hpath.eq_of_length ?_
  rw [length_path (hb z hz3).le, length_path hbn.le]
  show z.1.pfx = n.pfx
  omega

/-- One announcement by an AS with a number of 2^31 or more, and the whole import fails. -/
theorem import_big_asn (ht : TablesOk t) (hr : AllNetworks t rows) {n : Network} {k : Nat} (hn : (n, k) ∈ t.announcements)
    (hk : ∀ x ∈ t.announcements, SameBlock x.1 n → 2 ^ 31 ≤ x.2) (w0 w' : Writer K) :
    importWrite t c rows vendor description license w0 ≠ .ok (.ret w') := by
  intro h
  obtain ⟨-, -, -, hlt, -⟩ := importWrite_run h
  have hhas : HasNetwork t n := .inl (List.mem_map_of_mem hn)
  obtain ⟨m, y, hm, hs, hb⟩ := sqlBest_self (c 0 n) hn (by
    intro y hy
    obtain ⟨_, _, e⟩ := ht.made y.1 (.inl (List.mem_map_of_mem hy))
    exact (new_canonical _ _ _ e).1)
  have h1 := hlt _ (List.mem_map_of_mem ((hr.2 n).mpr hhas)) y hb
  have h2 := hk _ hm hs
  simp only at h2
  omega

/-- One named AS with a number of 2^31 or more, and the whole import fails. -/
theorem import_big_as {k : Nat} {name : CStr} (hk : NameOf t k = some name) (hb : 2 ^ 31 ≤ k) (w0 w' : Writer K) :
    importWrite t c rows vendor description license w0 ≠ .ok (.ret w') := by
  intro h
  obtain ⟨-, hlt, -⟩ := importWrite_run h
  unfold NameOf at hk
  split at hk
  · cases hk
  · rename_i x nm hx
    have hnum : x = k := by simpa using List.find?_some hx
    subst hnum
    have hm := List.mem_of_find?_eq_some hx
    refine Nat.lt_irrefl _ (Nat.lt_of_lt_of_le (hlt _ (List.mem_map_of_mem hm) ?_) hb)
    intro h0
    simp only at h0 hk
    exact absurd (hk.symm.trans (if_pos h0)) (by simp)

/-- One country with an invalid code or a continent code that has not two characters, and the whole import fails. -/
theorem import_bad_country {x : CStr × CStr × CStr} (hx : x ∈ t.countries) (hbad : ¬ ValidCC x.1 ∨ x.2.1.length ≠ 2) (w0 w' : Writer K) :
    importWrite t c rows vendor description license w0 ≠ .ok (.ret w') := by
  intro h
  obtain ⟨-, -, -, -, hv⟩ := importWrite_run h
  obtain ⟨g1, a, b, g2⟩ := hv x hx
  rcases hbad with h | h
  · exact h g1
  · rw [g2] at h; exact h rfl

end

/-! ## Samples -/

/-- 10.0.0.0/8 is announced by an AS and registered in DE, 10.1.0.0/16 is overridden to be an anonymous proxy; AS 65000 is
    called "X", but overridden to be "Y" in AT. -/
def sampleTables (asn : Nat) : Tables where
  autnums := [(65000, [88])]
  announcements := [(net10_8p, asn)]
  networks := [(net10_8p, some [68, 69])]
  geofeedNetworks := []
  geofeeds := []
  feeds := []
  autnumFeeds := []
  overrides := [(net10_1_16, ⟨none, some true, none, none, none⟩)]
  autnumOverrides := [(65000, some [89], ⟨some [65, 84], none, none, none, none⟩)]
  countries := [([65, 84], [69, 85], [65]), ([68, 69], [69, 85], [68])]

theorem sample_has {asn : Nat} {n : Network} (h : HasNetwork (sampleTables asn) n) : n = net10_8p ∨ n = net10_1_16 := by
  simpa [HasNetwork, sampleTables] using h

theorem sample_ok (asn : Nat) : TablesOk (sampleTables asn) where
  made n h := by
    rcases sample_has h with rfl | rfl
    · exact ⟨ip4 10 0 0 0, 8, by decide +kernel⟩
    · exact ⟨ip4 10 1 2 3, 16, by decide +kernel⟩
  separate n h hf := by
    rcases sample_has h with rfl | rfl
    · cases hf
    · cases hf
  geofeeds x hx := by cases hx
  keys := by simp [sampleTables]
  names := by simp [sampleTables]
  overrideNames := by
    intro x hx s hs
    cases List.mem_singleton.mp hx
    cases hs
    decide
  countries := by
    intro x hx
    simp only [sampleTables, List.mem_cons, List.not_mem_nil, or_false] at hx
    rcases hx with rfl | rfl <;> decide
  sorted := by
    show [_, _].Pairwise _
    decide

theorem sample_rows (asn : Nat) : AllNetworks (sampleTables asn) [net10_8p, net10_1_16] := by
  constructor
  · decide
  · intro n
    constructor
    · intro h
      rcases List.mem_cons.mp h with rfl | h
      · exact .inl (by simp [sampleTables])
      · cases List.mem_singleton.mp h
        exact .inr (.inr (.inr (.inl (by simp [sampleTables]))))
    · intro h
      rcases sample_has h with rfl | rfl <;> simp

theorem sample_usable {asn limit : Nat} (h : asn < limit) (hl : 65000 < limit) : Usable limit (sampleTables asn) where
  announcements x hx := by cases List.mem_singleton.mp hx; exact h
  autnums x hx := by cases List.mem_singleton.mp hx; exact hl
  networks x hx := by
    cases List.mem_singleton.mp hx
    rintro s ⟨⟩
    exact .inr (by decide)
  geofeeds x hx := by cases hx
  feeds x hx := by cases hx
  autnumFeeds x hx := by cases hx
  overrides x hx := by
    cases List.mem_singleton.mp hx
    rintro s ⟨⟩
  autnumOverrides x hx := by
    cases List.mem_singleton.mp hx
    rintro s ⟨⟩
    exact .inr (by decide)
  countries := by
    intro x hx
    simp only [sampleTables, List.mem_cons, List.not_mem_nil, or_false] at hx
    rcases hx with rfl | rfl <;> decide

/-- The first of all rows of the same rank is taken. -/
def firstRow : Nat → Network → Nat := fun _ _ => 0

/-- The networks as they are written. -/
def sample8 : Network := { net10_8p with cc0 := 65, cc1 := 84, asn := 65000 }
def sample16 : Network := { net10_1_16 with cc0 := 65, cc1 := 84, asn := 65000, flags := 1 }

/-- The sample is imported and written. -/
theorem sample_imported : ∃ w f db, Imported 32 none none (sampleTables 65000) firstRow [net10_8p, net10_1_16] [73] [] [] demoEnv w f ∧
    dbOpen f = .ok db ∧ w.networks.networks = [sample8, sample16] := by
  obtain ⟨w0, w1, hw0, hi⟩ := import_succeeds_partial (K := Unit) (ctz0 := 32) (key1 := none) (key2 := none) (c := firstRow) (vendor := [73])
    (description := []) (license := []) (by omega) (sample_ok 65000) (sample_rows 65000) (sample_usable (by omega) (by omega)) (by decide) (by decide) (by decide)
  obtain ⟨g1, -, g3, -⟩ := importWrite_run hi
  have hok := import_opOk (K := Unit) (ctz0 := 32) (c := firstRow) (vendor := [73]) (description := []) (license := [])
    (sample_ok 65000) (sample_rows 65000) (by decide) (by decide) (by decide) g3
  obtain ⟨w, f, db, ⟨w2, old, version, ⟨-, w0', hw0', hrun⟩, he, hwr, hlen⟩, hopen, hnets⟩ := example_file hok (l := [sample8, sample16])
    (by decide +kernel) (by decide +kernel) (by decide +kernel)
  rw [hw0] at hw0'
  cases hw0'
  rw [g1] at hrun
  cases hrun
  exact ⟨w, f, db, ⟨sample_ok _, sample_rows _, by decide, by decide, by decide, w0, w1, old, version, hw0, hi, he, hwr, hlen⟩, hopen, hnets⟩

/-- The lookup does not find every address of the tables: 10.0.0.1 in the sample. -/
theorem import_lookup_violated : ∃ w f db, Imported 32 none none (sampleTables 65000) firstRow [net10_8p, net10_1_16] [73] [] [] demoEnv w f ∧
    dbOpen f = .ok db ∧ Contains net10_8p (ip4 10 0 0 1) ∧ HasNetwork (sampleTables 65000) net10_8p ∧ lookup db (ip4 10 0 0 1) = .ok (.ok none) := by
  obtain ⟨w, f, db, h1, h2, h3⟩ := sample_imported
  refine ⟨w, f, db, h1, h2, by decide, .inl (by simp [sampleTables]), ?_⟩
  refine lookup_misses (by decide) (imported_written h1).1 h2 (k := sample8) (m := sample16) ?_ ?_ ?_ (by decide) (by unfold AgreeOn; decide +kernel)
  · rw [h3]; decide +kernel
  · rw [h3]
    refine ⟨by decide +kernel, by decide +kernel, ?_⟩
    intro m hm
    revert m
    decide +kernel
  · rw [h3]; decide +kernel

/-- What the sample says about 10.1.2.3: AS 65000, in AT, an anonymous proxy. -/
example : TablesSay (sampleTables 65000) (ip4 10 1 2 3) (some 65000) ⟨some [65, 84], some true, none, none, none⟩ := by
  have := importRow_says (c := firstRow) (sample_ok 65000) (a := ip4 10 1 2 3) (n := net10_1_16) ⟨((sample_rows 65000).2 _).mp (by simp),
    by decide, fun m hm _ => by rcases sample_has hm with rfl | rfl <;> decide⟩
  rw [show importRowOf (sampleTables 65000) firstRow net10_1_16 = ⟨net10_1_16, some 65000, ⟨some [65, 84], some true, none, none, none⟩⟩ by
    decide +kernel] at this
  exact this

/-- The names in the sample: that of the override. -/
example : NameOf (sampleTables 65000) 65000 = some [89] ∧ NameOf (sampleTables 65000) 1 = none := by decide

/-- No network of the sample contains 11.0.0.0. -/
example : ∀ n, HasNetwork (sampleTables 65000) n → ¬ Contains n (ip4 11 0 0 0) := by
  intro n h
  rcases sample_has h with rfl | rfl <;> decide

/-- The full claim is false: an announcement by AS 4199999999. -/
theorem import_succeeds_violated : ¬ ∀ t, ImportSucceeds t := by
  intro h
  obtain ⟨w0, -, hw0, -⟩ := import_succeeds_partial (K := Unit) (ctz0 := 32) (key1 := none) (key2 := none) (c := firstRow) (vendor := [])
    (description := []) (license := []) (by omega) (sample_ok 65000) (sample_rows 65000) (sample_usable (by omega) (by omega)) (by decide) (by decide) (by decide)
  obtain ⟨w, hw⟩ := h (sampleTables 4199999999) (sample_ok _) (sample_usable (by omega) (by omega)) firstRow _ (sample_rows _) w0 hw0
  refine import_big_asn (sample_ok 4199999999) (sample_rows _) (n := net10_8p) (k := 4199999999) (List.mem_singleton.mpr rfl) ?_ w0 w hw
  intro x hx _
  cases List.mem_singleton.mp hx
  decide

end Loc.Props
