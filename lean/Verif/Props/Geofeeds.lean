import Verif.Lemmas.GeofeedUse
/-
C78: `location-importer update-geofeeds` registers exactly the geofeeds networks refer to, refreshes those that were not updated
for a week, records what went wrong with the others, and forgets what is older than two weeks; a geofeed is only believed about
networks that refer to it.
C79: `location-importer import-countries` leaves exactly the countries of the files in the database.
-/
namespace Loc.Props
open Loc Loc.Spec

/-- The tables after `update-geofeeds`, however the tasks are scheduled.  Missing: that a feed is refreshed whatever happens to
    the others; see `geofeeds_violated`. -/
theorem geofeeds_exact_partial (e : GeoEnv) (schedule : List (Nat × CStr) → List (Nat × CStr)) (hs : ∀ l, (schedule l).Perm l)
    (t : GeoTables) (ht : GeoOk t) : let r := updateGeofeeds e schedule t
    GeoOk r.1 ∧ r.1.links = t.links ∧ (∀ url, (∃ x ∈ r.1.feeds, x.2.url = url) ↔ Linked t url) ∧
    (r.2 = true ↔ ∀ url, Linked t url → NotSince week e.now (feedAt t url) → ¬ Fatal e url) ∧
    ∀ url, Linked t url → ∃ rows,
      -- fetched if that was due, and otherwise as it was
      ((feedAt r.1 url = feedAt t url ∧ rows = feedRows t url ∧ (r.2 = true → ¬ NotSince week e.now (feedAt t url))) ∨
        (NotSince week e.now (feedAt t url) ∧ Refreshed e url (feedAt t url) (feedRows t url) (feedAt r.1 url) rows)) ∧
      -- the rows, if not too old
      (r.2 = true → NotSince (2 * week) e.now (feedAt r.1 url) → feedRows r.1 url = []) ∧
      (r.2 = true → ¬ NotSince (2 * week) e.now (feedAt r.1 url) → feedRows r.1 url = rows) ∧
      (r.2 = false → feedRows r.1 url = rows) := by
  obtain ⟨h1, h2, h3, h4, h5⟩ := update_spec (e := e) hs ht
  refine ⟨h1, h2, h3, h4, fun url hl => ?_⟩
  obtain ⟨rows, g1, g2, g3⟩ := h5 url hl
  exact ⟨rows, g1, fun h => (g3 h).1, fun h => (g3 h).2, g2⟩

/-- A feed whose file can be read says afterwards what the file says, if no other feed got in the way. -/
theorem geofeeds_file (e : GeoEnv) (schedule : List (Nat × CStr) → List (Nat × CStr)) (hs : ∀ l, (schedule l).Perm l)
    (t : GeoTables) (ht : GeoOk t) (h : (updateGeofeeds e schedule t).2 = true) (url : CStr) (hl : Linked t url)
    (hd : NotSince week e.now (feedAt t url)) (f : Bytes) (hf : e.retrieve url = .file f true) :
    GeoContents e f (feedRows (updateGeofeeds e schedule t).1 url) ∧
    feedAt (updateGeofeeds e schedule t).1 url = ⟨url, none, none, some e.now⟩ := by
  obtain ⟨-, -, -, -, h5⟩ := geofeeds_exact_partial e schedule hs t ht
  obtain ⟨rows, h6, -, h7, -⟩ := h5 url hl
  rcases h6 with ⟨-, -, h6⟩ | ⟨-, h6⟩
  · exact absurd hd (h6 h)
  · revert h6 h7
    generalize feedAt (updateGeofeeds e schedule t).1 url = g
    intro h7 h6
    cases h6 with
    | file f' rows hf' hr =>
      rw [hf] at hf'
      cases hf'
      rw [h7 h fun hn => absurd (hn e.now rfl) (by unfold week; omega)]
      exact ⟨hr, rfl⟩
    | gone text h => rw [hf] at h; cases h
    | refused code text h => rw [hf] at h; cases h
    | failed text h => rw [hf] at h; cases h

/-- What is in the table stays well-formed: networks are blocks, countries are two letters. -/
theorem geofeeds_clean (e : GeoEnv) (schedule : List (Nat × CStr) → List (Nat × CStr)) (hs : ∀ l, (schedule l).Perm l)
    (t : GeoTables) (ht : GeoOk t) (hr : ∀ r ∈ t.rows, Block r.2.network ∧ ValidCC r.2.country) :
    ∀ r ∈ (updateGeofeeds e schedule t).1.rows, Block r.2.network ∧ ValidCC r.2.country := by
  obtain ⟨h1, -, h3, -, h5⟩ := geofeeds_exact_partial e schedule hs t ht
  intro r hmem
  obtain ⟨x, hx, hid⟩ := h1.foreign r hmem
  have hl := (h3 x.2.url).mp ⟨x, hx, rfl⟩
  have hin : r.2 ∈ feedRows (updateGeofeeds e schedule t).1 x.2.url :=
    mem_feedRows.mpr ⟨x.1, x.2, hx, rfl, by rw [hid]; exact hmem⟩
  obtain ⟨rows, g1, g2, g3, g4⟩ := h5 x.2.url hl
  have hrows : r.2 ∈ rows := by
    cases hb : (updateGeofeeds e schedule t).2 with
    | false =>
      rw [← g4 hb]
      exact hin
    | true =>
      rw [← g3 hb fun hn => ?_]
      · exact hin
      · rw [g2 hb hn] at hin
        cases hin
  have hold : ∀ q ∈ feedRows t x.2.url, Block q.network ∧ ValidCC q.country := by
    intro q hq
    obtain ⟨id, f, -, -, hq⟩ := mem_feedRows.mp hq
    exact hr _ hq
  rcases g1 with ⟨-, rfl, -⟩ | ⟨-, g1⟩
  · exact hold _ hrows
  · revert g1
    generalize feedAt (updateGeofeeds e schedule t).1 x.2.url = g
    intro g1
    cases g1 with
    | file f rows hf hc =>
      obtain ⟨line, a, b, -, k1, -, k2⟩ := geoContents_row hc hrows
      exact ⟨names_block k1, k2⟩
    | gone text h => cases hrows
    | refused code text h => exact hold _ hrows
    | failed text h => exact hold _ hrows

/-- What `write` takes from the geofeeds: for every network that a feed which may speak for it locates, one of these
    locations, and nothing else. -/
theorem geofeeds_used (t : GeoTables) (hl : ∀ l ∈ t.links, Block l.1) (hr : ∀ r ∈ t.rows, Block r.2.network) :
    (∀ c, ((usedGeofeeds c t).map (·.1)).Nodup) ∧
    (∀ c n cc, (n, cc) ∈ usedGeofeeds c t → ∃ url r, r ∈ feedRows t url ∧ MaySpeak t url n ∧ r.network = n ∧ cc = some r.country) ∧
    (∀ c url r, r ∈ feedRows t url → MaySpeak t url r.network → ∃ cc, (r.network, cc) ∈ usedGeofeeds c t) ∧
    ∀ url r, r ∈ feedRows t url → MaySpeak t url r.network → ∃ c, (r.network, some r.country) ∈ usedGeofeeds c t := by
  refine ⟨fun c => ?_, fun c n cc h => ?_, fun c url r h1 h2 => ?_, fun url r h1 h2 => ?_⟩
  · exact (nodup_eraseDups _).sublist (distinctOn_keys c _ _)
  · obtain ⟨x, hx, rfl⟩ := mem_usedGeofeeds.mp h
    unfold sqlPick at hx
    obtain ⟨h3, h4⟩ := List.mem_filter.mp (List.mem_of_getElem? hx)
    have := of_decide_eq_true h4
    obtain ⟨x1, x2⟩ := x
    simp only at this
    subst this
    obtain ⟨url, r, g1, g2, g3, g4⟩ := (mem_joinGeofeeds hl hr).mp h3
    exact ⟨url, r, g1, g2, g3, by rw [g4]⟩
  · have hm : (r.network, r.country) ∈ (joinGeofeeds t).filter fun x => decide (x.1 = r.network) :=
      List.mem_filter.mpr ⟨(mem_joinGeofeeds hl hr).mpr ⟨url, r, h1, h2, rfl, rfl⟩, decide_eq_true rfl⟩
    obtain ⟨x, -, hx⟩ := sqlPick_mem (c r.network) (List.ne_nil_of_mem hm)
    exact ⟨_, mem_usedGeofeeds.mpr ⟨x, hx, rfl⟩⟩
  · have hm : (r.network, r.country) ∈ (joinGeofeeds t).filter fun x => decide (x.1 = r.network) :=
      List.mem_filter.mpr ⟨(mem_joinGeofeeds hl hr).mpr ⟨url, r, h1, h2, rfl, rfl⟩, decide_eq_true rfl⟩
    obtain ⟨c, hc⟩ := sqlPick_all hm
    exact ⟨fun _ => c, mem_usedGeofeeds.mpr ⟨_, hc, rfl⟩⟩

/-! ## Examples, and what is missing -/

def demoUrl : CStr := ascii "https://a"
def otherUrl : CStr := ascii "https://b"

/-- A server with this file behind the first URL, and something else behind all others. -/
def demoGeo (file : Bytes) (others : Fetched) : GeoEnv := ⟨fun url => if url = demoUrl then .file file true else others, fun _ => true, 10000000⟩

/-- 10.0.0.0/8 refers to both; the second one was updated long ago, and the first one never. -/
def demoGeoTables : GeoTables :=
  ⟨[(net10_8, demoUrl), (net10_8, otherUrl)], [(0, ⟨otherUrl, none, none, some 1⟩)], [(0, ⟨net10_8, ascii "FR", [], []⟩)], 1⟩

theorem demo_geo_ok : GeoOk demoGeoTables :=
  ⟨by decide, by decide, by decide, by decide⟩

def demoGeoFile : Bytes := ascii "# comment\n10.1.0.0/16,de,DE-BE,Berlin,\nnonsense\n"

theorem demo_geo_lines (e : GeoEnv) (he : ∀ l, e.decodes l = true) : ∃ r : GeoRow, geoLines e (fileLines demoGeoFile) = some [r] ∧
    r.country = ascii "DE" ∧ r.region = ascii "DE-BE" ∧ r.city = ascii "Berlin" ∧ ipNetwork (ascii "10.1.0.0/16") = some r.network := by
  have hf : fileLines demoGeoFile = [ascii "# comment\n", ascii "10.1.0.0/16,de,DE-BE,Berlin,\n", ascii "nonsense\n"] := by decide +kernel
  have hn : (ipNetwork (ascii "10.1.0.0/16")).isSome = true := by decide +kernel
  obtain ⟨n, hn⟩ := Option.isSome_iff_exists.mp hn
  have h1 : geoLine e (ascii "# comment\n") = .skip := geoLine_other fun a b c d h => by
    obtain ⟨-, s, h1, h2, -⟩ := h
    rw [endTrimmed_iff] at h1
    subst h1
    exact h2 (by decide)
  have h3 : geoLine e (ascii "nonsense\n") = .skip := geoLine_other fun a b c d h => by
    obtain ⟨-, s, h1, -, h2⟩ := h
    rw [endTrimmed_iff] at h1
    subst h1
    rw [fourFields_iff] at h2
    obtain ⟨l, h2⟩ := h2
    rw [show splitCommas 5 (pyRstrip (ascii "nonsense\n")) = [ascii "nonsense"] by decide +kernel] at h2
    cases h2
  have h2 : geoLine e (ascii "10.1.0.0/16,de,DE-BE,Berlin,\n") = .row ⟨n, ascii "DE", ascii "DE-BE", ascii "Berlin"⟩ := by
    have hs : splitCommas 5 (pyRstrip (ascii "10.1.0.0/16,de,DE-BE,Berlin,\n")) =
      [ascii "10.1.0.0/16", ascii "de", ascii "DE-BE", ascii "Berlin", []] := by decide +kernel
    have hc : pyUpper (pyStrip (ascii "de")) = ascii "DE" := by decide +kernel
    unfold geoLine
    rw [he, hs]
    simp only [hn, hc]
    rfl
  refine ⟨⟨n, ascii "DE", ascii "DE-BE", ascii "Berlin"⟩, ?_, rfl, rfl, rfl, hn⟩
  rw [hf]
  unfold geoLines
  rw [h1]
  simp only
  unfold geoLines
  rw [h2]
  simp only
  unfold geoLines
  rw [h3]
  simp only
  unfold geoLines
  rfl

/-- The first feed works, the second one is gone: afterwards the first one says what its file says, nothing is left of the
    second one, and that is recorded. -/
theorem demo_geofeeds : let r := updateGeofeeds (demoGeo demoGeoFile (.http 404 (ascii "Not Found"))) List.reverse demoGeoTables
    r.2 = true ∧ GeoContents (demoGeo demoGeoFile (.http 404 (ascii "Not Found"))) demoGeoFile (feedRows r.1 demoUrl) ∧
    (feedRows r.1 demoUrl).map (·.country) = [ascii "DE"] ∧ feedRows r.1 otherUrl = [] ∧
    feedAt r.1 otherUrl = ⟨otherUrl, some 404, some (ascii "Not Found"), some 1⟩ := by
  have hs : ∀ l : List (Nat × CStr), (List.reverse l).Perm l := fun l => List.reverse_perm l
  have hne : otherUrl ≠ demoUrl := by decide
  have r1 : (demoGeo demoGeoFile (.http 404 (ascii "Not Found"))).retrieve demoUrl = .file demoGeoFile true := by
    unfold demoGeo
    simp only [if_true]
  have r2 : ∀ u, u ≠ demoUrl → (demoGeo demoGeoFile (.http 404 (ascii "Not Found"))).retrieve u = .http 404 (ascii "Not Found") := fun u h => if_neg h
  obtain ⟨row, hrow, hc, -⟩ := demo_geo_lines (demoGeo demoGeoFile (.http 404 (ascii "Not Found"))) fun _ => rfl
  have hnow : (demoGeo demoGeoFile (.http 404 (ascii "Not Found"))).now = 10000000 := rfl
  generalize demoGeo demoGeoFile (.http 404 (ascii "Not Found")) = e at r1 r2 hrow hnow
  obtain ⟨-, -, -, g4, g5⟩ := geofeeds_exact_partial e List.reverse hs demoGeoTables demo_geo_ok
  have hok : (updateGeofeeds e List.reverse demoGeoTables).2 = true := by
    refine g4.mpr fun url _ _ hf => ?_
    by_cases hu : url = demoUrl
    · subst hu
      rcases hf with h | ⟨c, x, h, h'⟩ | ⟨x, h, h'⟩ | ⟨x, h⟩ | ⟨x, l, h, h'⟩ <;> rw [r1] at h <;> cases h
      have := (geoLines_file e demoGeoFile).1.mpr ⟨l, h'⟩
      rw [hrow] at this
      cases this
    · rcases hf with h | ⟨c, x, h, h'⟩ | ⟨x, h, h'⟩ | ⟨x, h⟩ | ⟨x, l, h, h'⟩ <;> rw [r2 _ hu] at h <;> cases h
      revert h'
      decide
  have hl1 : Linked demoGeoTables demoUrl := ⟨net10_8, List.mem_cons_self⟩
  have hl2 : Linked demoGeoTables otherUrl := ⟨net10_8, List.mem_cons_of_mem _ List.mem_cons_self⟩
  have f1 : feedAt demoGeoTables demoUrl = ⟨demoUrl, none, none, none⟩ := by decide
  have f2 : feedAt demoGeoTables otherUrl = ⟨otherUrl, none, none, some 1⟩ := by decide
  obtain ⟨k1, -⟩ := geofeeds_file e List.reverse hs demoGeoTables demo_geo_ok hok demoUrl hl1
    (by rw [f1]; intro u h; cases h) demoGeoFile r1
  obtain ⟨rows, h6, h7, -⟩ := g5 otherUrl hl2
  rw [f2, hnow] at h6
  have hd : NotSince week 10000000 ⟨otherUrl, none, none, some 1⟩ := by
    intro u h
    cases h
    decide
  have hfeed : feedAt (updateGeofeeds e List.reverse demoGeoTables).1 otherUrl = ⟨otherUrl, some 404, some (ascii "Not Found"), some 1⟩ := by
    rcases h6 with ⟨-, -, h6⟩ | ⟨-, h6⟩
    · exact absurd hd (h6 hok)
    · revert h6
      generalize feedAt (updateGeofeeds e List.reverse demoGeoTables).1 otherUrl = g
      intro h6
      have r3 := r2 otherUrl hne
      cases h6 with
      | file f rows h => rw [r3] at h; cases h
      | gone text h =>
        rw [r3] at h
        cases h
        rfl
      | refused code text h hc' =>
        rw [r3] at h
        cases h
        exact absurd rfl hc'
      | failed text h => rw [r3] at h; cases h
  refine ⟨hok, k1, ?_, ?_, hfeed⟩
  · have := geoContents_unique k1 fun l hl hf => by
      have := (geoLines_file e demoGeoFile).1.mpr ⟨_, isLines_exists _, l, hl, hf⟩
      rw [hrow] at this
      cases this
    rw [hrow] at this
    injection this with this
    rw [← this, List.map_singleton, hc]
  · refine h7 hok ?_
    rw [hfeed, hnow]
    intro u h
    cases h
    decide

/-- A line with a NUL in it is fatal. -/
theorem demo_fatal (e : GeoEnv) (he : ∀ l, e.decodes l = true) : GeoFatal e (ascii "10.1.0.0/16,D" ++ 0 :: ascii ",,\n") := by
  rw [← (geoLine_spec e _).1]
  have h : ∀ e' : GeoEnv, (∀ l, e'.decodes l = true) → geoLine e' (ascii "10.1.0.0/16,D" ++ 0 :: ascii ",,\n") =
      geoLine ⟨fun _ => .raised, fun _ => true, 0⟩ (ascii "10.1.0.0/16,D" ++ 0 :: ascii ",,\n") := by
    intro e' h
    unfold geoLine
    rw [h]
  rw [h e he]
  decide +kernel

/-- One feed whose server closes the connection, whose file is damaged, or has a line with a NUL in it: a feed that works
    fine is not updated, and what is too old is not forgotten. -/
theorem geofeeds_violated : ∀ bad ∈ [Fetched.raised, .file [] false, .file (ascii "10.1.0.0/16,D" ++ 0 :: ascii ",,\n") true],
    let e := demoGeo demoGeoFile bad
    let r := updateGeofeeds e (fun l => l) demoGeoTables
    -- the first feed is due, and nothing is wrong with it
    Linked demoGeoTables demoUrl ∧ NotSince week e.now (feedAt demoGeoTables demoUrl) ∧ ¬ Fatal e demoUrl ∧
    -- it is not fetched
    r.2 = false ∧ feedAt r.1 demoUrl = ⟨demoUrl, none, none, none⟩ ∧ feedRows r.1 demoUrl = [] ∧
    -- the second feed is too old
    NotSince (2 * week) e.now (feedAt r.1 otherUrl) ∧ feedRows r.1 otherUrl = [⟨net10_8, ascii "FR", [], []⟩] := by
  intro bad hbad
  have hne : otherUrl ≠ demoUrl := by decide
  have r1 : (demoGeo demoGeoFile bad).retrieve demoUrl = .file demoGeoFile true := by
    unfold demoGeo
    simp only [if_true]
  have r2 : (demoGeo demoGeoFile bad).retrieve otherUrl = bad := if_neg (t := Fetched.file demoGeoFile true) hne
  have hdec : ∀ l, (demoGeo demoGeoFile bad).decodes l = true := fun _ => rfl
  have hnow : (demoGeo demoGeoFile bad).now = 10000000 := rfl
  generalize demoGeo demoGeoFile bad = e at r1 r2 hdec hnow
  obtain ⟨row, hrow, -⟩ := demo_geo_lines e hdec
  have hfatal : Fatal e otherUrl := by
    simp only [List.mem_cons, List.not_mem_nil, or_false] at hbad
    rcases hbad with rfl | rfl | rfl
    · exact .inl r2
    · exact .inr (.inr (.inr (.inl ⟨_, r2⟩)))
    · refine .inr (.inr (.inr (.inr ⟨_, _, r2, isLines_exists _, _, ?_, demo_fatal e hdec⟩)))
      decide +kernel
  have hgood : ¬ Fatal e demoUrl := by
    intro hf
    rcases hf with h | ⟨c, x, h, h'⟩ | ⟨x, h, h'⟩ | ⟨x, h⟩ | ⟨x, l, h, h'⟩ <;> rw [r1] at h <;> cases h
    have := (geoLines_file e demoGeoFile).1.mpr ⟨l, h'⟩
    rw [hrow] at this
    cases this
  have h1 : addFeeds (dropFeeds demoGeoTables) (demoGeoTables.links.map (·.2)) =
      ⟨demoGeoTables.links, [(0, ⟨otherUrl, none, none, some 1⟩), (1, ⟨demoUrl, none, none, none⟩)], demoGeoTables.rows, 2⟩ := by decide +kernel
  have h2 : dueFeeds 10000000 ⟨demoGeoTables.links, [(0, ⟨otherUrl, none, none, some 1⟩), (1, ⟨demoUrl, none, none, none⟩)], demoGeoTables.rows, 2⟩ =
      [(0, otherUrl), (1, demoUrl)] := by decide +kernel
  have hu : updateGeofeeds e (fun l => l) demoGeoTables =
    match geoTasks e (dueFeeds e.now (addFeeds (dropFeeds demoGeoTables) (demoGeoTables.links.map (·.2)))) (addFeeds (dropFeeds demoGeoTables) (demoGeoTables.links.map (·.2))) with
    | (t, false) => (t, false)
    | (t, true) => (purgeRows e.now t, true) := rfl
  rw [h1, hnow, h2] at hu
  generalize hT : (⟨demoGeoTables.links, [(0, ⟨otherUrl, none, none, some 1⟩), (1, ⟨demoUrl, none, none, none⟩)], demoGeoTables.rows, 2⟩ : GeoTables) = T at hu
  have hf : fetchGeofeed e 0 otherUrl T = none := by
    have hm : (0, (⟨otherUrl, none, none, some 1⟩ : Geofeed)) ∈ T.feeds := by
      rw [← hT]
      exact List.mem_cons_self
    rcases fetch_spec (e := e) hm with ⟨h, -⟩ | ⟨t', -, h, -⟩
    · exact h
    · exact absurd hfatal h
  have ht : geoTasks e [(0, otherUrl), (1, demoUrl)] T = (T, false) := by
    unfold geoTasks
    rw [hf]
  rw [ht] at hu
  simp only at hu
  simp only [hu, hnow]
  subst hT
  refine ⟨⟨net10_8, List.mem_cons_self⟩, ?_, hgood, trivial, by decide +kernel, by decide +kernel, ?_, by decide +kernel⟩
  · rw [show feedAt demoGeoTables demoUrl = ⟨demoUrl, none, none, none⟩ by decide +kernel]
    intro u h
    cases h
  · intro u h
    have hx : feedAt ⟨demoGeoTables.links, [(0, ⟨otherUrl, none, none, some 1⟩), (1, ⟨demoUrl, none, none, none⟩)], demoGeoTables.rows, 2⟩ otherUrl =
      ⟨otherUrl, none, none, some 1⟩ := by decide +kernel
    rw [hx] at h
    cases h
    decide

/-- A feed may speak for a network in one that refers to it, and is then used. -/
example : ∃ cc, (net10_8, cc) ∈ usedGeofeeds (fun _ => 0) demoGeoTables := by
  have hb : Block net10_8 := by decide +kernel
  refine (geofeeds_used demoGeoTables ?_ ?_).2.2.1 _ otherUrl ⟨net10_8, ascii "FR", [], []⟩ (by decide +kernel) ⟨net10_8, by decide +kernel, rfl, fun a h => h⟩
  · intro l hl
    have : l.1 = net10_8 := by
      simp only [demoGeoTables, List.mem_cons, List.not_mem_nil, or_false] at hl
      rcases hl with rfl | rfl <;> rfl
    rw [this]
    exact hb
  · intro r hr
    have : r.2.network = net10_8 := by
      simp only [demoGeoTables, List.mem_cons, List.not_mem_nil, or_false] at hr
      rw [hr]
    rw [this]
    exact hb

/-! ## Countries -/

/-- The table after `import-countries`.  Missing: that only lines about countries are taken; see `countries_violated`. -/
theorem countries_exact_partial (files : List (List Bytes)) (t : CountryTable) : let r := updateCountries files t
    (r.2 = true ↔ ¬ ∃ file ∈ files, ∃ line ∈ file, ∃ a b c, AboutCountry line a b c ∧ 0 ∈ a ++ b ++ c) ∧
    (r.2 = false → r.1 = t) ∧
    (r.2 = true → (r.1.map (·.1)).Nodup ∧ ∀ a b c, (a, b, c) ∈ r.1 ↔ FirstLine files.flatten a b c) := by
  have hu : updateCountries files t = match countryRows [] files.flatten with
    | none => (t, false)
    | some t => (t, true) := rfl
  have hflat : (∃ file ∈ files, ∃ line ∈ file, ∃ a b c, AboutCountry line a b c ∧ 0 ∈ a ++ b ++ c) ↔
      ∃ line ∈ files.flatten, ∃ a b c, AboutCountry line a b c ∧ 0 ∈ a ++ b ++ c := by
    constructor
    · rintro ⟨file, h1, line, h2, h3⟩
      exact ⟨line, List.mem_flatten.mpr ⟨file, h1, h2⟩, h3⟩
    · rintro ⟨line, h1, h2⟩
      obtain ⟨file, h3, h4⟩ := List.mem_flatten.mp h1
      exact ⟨file, h3, line, h4, h2⟩
  intro r
  have hr : r = updateCountries files t := rfl
  rw [hu] at hr
  rw [hflat]
  rcases countryRows_spec (lines := files.flatten) (t := []) List.nodup_nil with ⟨h1, h2⟩ | ⟨t', h1, h2, h3, h4⟩
  · rw [h1] at hr
    rw [hr]
    exact ⟨⟨fun h => (by cases h), fun h => absurd h2 h⟩, fun _ => rfl, fun h => (by cases h)⟩
  · rw [h1] at hr
    rw [hr]
    refine ⟨⟨fun _ => h2, fun _ => rfl⟩, fun h => (by cases h), fun _ => ⟨h3, fun a b c => ?_⟩⟩
    rw [h4 a b c]
    simp

/-- Two files, one of them with a comment, and with the same country in both. -/
example : updateCountries [[ascii "# countries\n", ascii "DE\tEU\tGermany\n"], [ascii "DE EU Deutschland\n", ascii "GB EU United Kingdom \n"]]
    [(ascii "XX", ascii "EU", ascii "X")] =
    ([(ascii "DE", ascii "EU", ascii "Germany"), (ascii "GB", ascii "EU", ascii "United Kingdom")], true) := by decide +kernel

/-- Any three words are taken for a country; the next `write` then fails with an exception. -/
theorem countries_violated : ∃ files : List (List Bytes), (updateCountries files []).2 = true ∧
    ∀ (K : Type) (w : Writer K), importCountries w (updateCountries files []).1 = .ok (.exc .system) := by
  refine ⟨[[ascii " # some comment\n"]], by decide +kernel, fun K w => ?_⟩
  have h : (updateCountries [[ascii " # some comment\n"]] []).1 = [(ascii "#", ascii "some", ascii "comment")] := by decide +kernel
  rw [h]
  have hn : countryNew (some (ascii "#")) = .error (.err EINVAL) := by decide
  unfold importCountries
  rw [hn]

end Loc.Props
