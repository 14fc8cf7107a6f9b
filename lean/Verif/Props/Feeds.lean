import Verif.Lemmas.Feeds
/-
C77: `location-importer update-feeds` leaves in the database, for every feed it was asked for and could process, exactly what the
file of the feed has, and touches nothing else; the exit code tells whether all of them could be processed.
-/
namespace Loc.Props
open Loc Loc.Spec

theorem feed_names_distinct : (allFeeds.map (·.1)).Nodup := by decide +kernel

theorem feeds_listed : allFeeds = theFeeds := by decide +kernel

/-- The rows after `update-feeds`.  Missing: files that are not feeds are to be refused, and one odd entry is not to spoil all
    others; see `feeds_violated`. -/
theorem feeds_exact_partial (e : FeedEnv) (requested : List CStr) (t : FeedTables) :
    ((updateFeeds e requested t).2 = 0 ↔ ∀ x ∈ theFeeds, FeedRequested requested x.1 → ∃ f, FeedWorks e x.2.1 x.2.2 f) ∧
    (∀ n src m, ((n, src), m) ∈ (updateFeeds e requested t).1.networks ↔
      ∃ x ∈ theFeeds, x.1 = src ∧
        ((∃ f, FeedRequested requested src ∧ FeedWorks e x.2.1 x.2.2 f ∧ FeedNetwork e x.2.1 f n m) ∨
          ((∀ f, ¬ (FeedRequested requested src ∧ FeedWorks e x.2.1 x.2.2 f)) ∧ ((n, src), m) ∈ t.networks))) ∧
    (∀ k src m, ((k, src), m) ∈ (updateFeeds e requested t).1.autnums ↔
      ∃ x ∈ theFeeds, x.1 = src ∧
        ((∃ f, FeedRequested requested src ∧ FeedWorks e x.2.1 x.2.2 f ∧ FeedAutnum e x.2.1 f k m) ∨
          ((∀ f, ¬ (FeedRequested requested src ∧ FeedWorks e x.2.1 x.2.2 f)) ∧ ((k, src), m) ∈ t.autnums))) := by
  rw [← feeds_listed]
  obtain ⟨h1, h2, h3, -⟩ := eachFeed_spec (e := e) (requested := requested) feed_names_distinct (t := dropUnsupported t) (ok := true)
  -- one source, one feed
  have hone : ∀ x ∈ allFeeds, ∀ y ∈ allFeeds, x.1 = y.1 → x = y := fun x hx y hy h =>
    eq_of_nodup_map feed_names_distinct hx hy h
  have key : ∀ (P : FeedKind → Bytes → Prop) (src : CStr) (Q : Prop),
      ((∃ x ∈ allFeeds, x.1 = src ∧ ∃ f, Updated e requested x f ∧ P x.2.1 f) ∨
        ((∀ x ∈ allFeeds, x.1 = src → ∀ f, ¬ Updated e requested x f) ∧ Q ∧ src ∈ allFeeds.map (·.1))) ↔
      ∃ x ∈ allFeeds, x.1 = src ∧ ((∃ f, FeedRequested requested src ∧ FeedWorks e x.2.1 x.2.2 f ∧ P x.2.1 f) ∨
        ((∀ f, ¬ (FeedRequested requested src ∧ FeedWorks e x.2.1 x.2.2 f)) ∧ Q)) := by
    intro P src Q
    constructor
    · rintro (⟨x, hx, rfl, f, ⟨g1, g2⟩, g3⟩ | ⟨g1, g2, g3⟩)
      · exact ⟨x, hx, rfl, .inl ⟨f, g1, g2, g3⟩⟩
      · obtain ⟨x, hx, rfl⟩ := List.mem_map.mp g3
        exact ⟨x, hx, rfl, .inr ⟨g1 x hx rfl, g2⟩⟩
    · rintro ⟨x, hx, rfl, ⟨f, g1, g2, g3⟩ | ⟨g1, g2⟩⟩
      · exact .inl ⟨x, hx, rfl, f, ⟨g1, g2⟩, g3⟩
      · refine .inr ⟨fun y hy h => ?_, g2, List.mem_map.mpr ⟨x, hx, rfl⟩⟩
        rw [hone y hy x hx h]
        exact g1
  refine ⟨?_, fun n src m => ?_, fun k src m => ?_⟩
  · unfold updateFeeds
    simp only [true_and] at h1
    rw [← h1]
    generalize eachFeed e requested allFeeds (dropUnsupported t, true) = r
    obtain ⟨t', ok⟩ := r
    cases ok <;> simp
  · have := h2 n src m
    unfold updateFeeds
    rw [this, ← key fun kind f => FeedNetwork e kind f n m]
    unfold dropUnsupported
    simp only [List.mem_filter, decide_eq_true_eq]
  · have := h3 k src m
    unfold updateFeeds
    rw [this, ← key fun kind f => FeedAutnum e kind f k m]
    unfold dropUnsupported
    simp only [List.mem_filter, decide_eq_true_eq]

/-- Networks and numbers stay unique per source. -/
theorem feeds_unique (e : FeedEnv) (requested : List CStr) (t : FeedTables) :
    ((t.networks.map (·.1)).Nodup → ((updateFeeds e requested t).1.networks.map (·.1)).Nodup) ∧
    ((t.autnums.map (·.1)).Nodup → ((updateFeeds e requested t).1.autnums.map (·.1)).Nodup) := by
  obtain ⟨-, -, -, h4, h5⟩ := eachFeed_spec (e := e) (requested := requested) feed_names_distinct (t := dropUnsupported t) (ok := true)
  exact ⟨fun h => h4 (h.sublist (List.Sublist.map _ List.filter_sublist)), fun h => h5 (h.sublist (List.Sublist.map _ List.filter_sublist))⟩

/-! ## Examples, and what is missing -/

/-- A world with this file behind the URL of DROP and this one behind that of AWS (which is read as `j`), and nothing else. -/
def demoFeeds (drop : String) (j : Json) : FeedEnv :=
  ⟨fun url => if url = ascii "https://www.spamhaus.org/drop/drop.txt" then some (ascii drop)
    else if url = ascii "https://ip-ranges.amazonaws.com/ip-ranges.json" then some [] else none, fun _ => some j, ⟨fun _ => true, [], fun _ => none⟩⟩

def dropName : CStr := ascii "SPAMHAUS-DROP"
def awsName : CStr := ascii "AWS-IP-RANGES"

/-- An entry of AWS. -/
def demoAws (network region : String) : Json := .object [(ascii "ip_prefix", .text (ascii network)), (ascii "region", .text (ascii region))]

/-- 10.0.0.0/8 in both feeds, from an earlier run. -/
def demoRows : FeedTables := ⟨[((net10_8, dropName), dropMarks), ((net10_8, awsName), ⟨some (ascii "DE"), none, none, some false, none⟩)], []⟩

theorem dropUrl : (dropName, FeedKind.drop, ascii "https://www.spamhaus.org/drop/drop.txt") ∈ theFeeds := by decide +kernel

theorem demo_retrieve (drop : String) (j : Json) :
    (demoFeeds drop j).retrieve (ascii "https://www.spamhaus.org/drop/drop.txt") = some (ascii drop) := by
  unfold demoFeeds
  simp only [if_true]

theorem demo_one : (dropSay (demoFeeds "" .null) (ascii "1.10.16.0/20 ; SBL1\n")).isSome = true ∧
    dropSay (demoFeeds "" .null) (ascii "; comment\n") = none ∧ dropSay (demoFeeds "" .null) (ascii "\n") = none := by decide +kernel

/-- These lines list the same network, or none. -/
theorem demo_lines (drop : String) (j : Json) : ∃ n, DropSays (demoFeeds drop j) (ascii "1.10.16.0/20 ; SBL1\n") n ∧
    DropSays (demoFeeds drop j) (ascii "1.10.16.0/20\n") n ∧ NamesExactly (ascii "1.10.16.0/20") n ∧
    (∀ m, ¬ DropSays (demoFeeds drop j) (ascii "; comment\n") m) ∧ ∀ m, ¬ DropSays (demoFeeds drop j) (ascii "\n") m := by
  obtain ⟨h, g1, g2⟩ := demo_one
  obtain ⟨n, hn⟩ := Option.isSome_iff_exists.mp h
  have e1 : pyStrip ((ascii "1.10.16.0/20 ; SBL1\n").takeWhile (· ≠ 59)) = ascii "1.10.16.0/20" := by decide +kernel
  have e2 : pyStrip ((ascii "1.10.16.0/20\n").takeWhile (· ≠ 59)) = ascii "1.10.16.0/20" := by decide +kernel
  have hn2 : dropSay (demoFeeds "" .null) (ascii "1.10.16.0/20\n") = some n := by
    unfold dropSay at hn ⊢
    rw [e1] at hn
    rw [e2]
    exact hn
  refine ⟨n, dropSay_iff.mp hn, dropSay_iff.mp hn2, ?_, fun m hm => ?_, fun m hm => ?_⟩
  · unfold dropSay at hn
    rw [e1, Option.filter_eq_some_iff] at hn
    exact ipNetworkStrict_iff.mp hn.1
  · have := dropSay_iff.mpr hm
    rw [show dropSay (demoFeeds drop j) (ascii "; comment\n") = none from g1] at this
    cases this
  · have := dropSay_iff.mpr hm
    rw [show dropSay (demoFeeds drop j) (ascii "\n") = none from g2] at this
    cases this

theorem demo_file_lines : fileLines (ascii "; comment\n\n1.10.16.0/20 ; SBL1\n") = [ascii "; comment\n", ascii "\n", ascii "1.10.16.0/20 ; SBL1\n"] ∧
    fileLines (ascii "1.10.16.0/20\n\n1.10.16.0/20 ; SBL1\n") = [ascii "1.10.16.0/20\n", ascii "\n", ascii "1.10.16.0/20 ; SBL1\n"] := by decide +kernel

theorem dropSays_unique {e : FeedEnv} {l : Bytes} {m n : Network} (hm : DropSays e l m) (hn : DropSays e l n) : m = n := by
  have := dropSay_iff.mpr hm
  rw [dropSay_iff.mpr hn] at this
  cases this
  rfl

/-- A feed that works: afterwards the network of the file is there, and nothing else of this source; the other feed was not
    asked for and keeps its rows. -/
theorem demo_feeds : ∃ n, let r := updateFeeds (demoFeeds "; comment\n\n1.10.16.0/20 ; SBL1\n" .null) [dropName] demoRows
    r.2 = 0 ∧ NamesExactly (ascii "1.10.16.0/20") n ∧ (∀ m marks, ((m, dropName), marks) ∈ r.1.networks ↔ m = n ∧ marks = dropMarks) ∧
    ∀ m marks, ((m, awsName), marks) ∈ r.1.networks ↔ ((m, awsName), marks) ∈ demoRows.networks := by
  obtain ⟨n, h1, -, h3, h4, h5⟩ := demo_lines "; comment\n\n1.10.16.0/20 ; SBL1\n" .null
  have hret := demo_retrieve "; comment\n\n1.10.16.0/20 ; SBL1\n" .null
  have hlines := isLines_exists (ascii "; comment\n\n1.10.16.0/20 ; SBL1\n")
  rw [demo_file_lines.1] at hlines
  revert h1 h4 h5 hret
  generalize demoFeeds "; comment\n\n1.10.16.0/20 ; SBL1\n" .null = e
  intro h1 h4 h5 hret
  have hw : FeedWorks e .drop (ascii "https://www.spamhaus.org/drop/drop.txt") (ascii "; comment\n\n1.10.16.0/20 ; SBL1\n") := by
    refine ⟨hret, _, hlines, ⟨_, List.mem_cons_of_mem _ (List.mem_cons_of_mem _ List.mem_cons_self), ascii "1.10.16.0/20 ", beforeComment_iff.mpr (by decide +kernel), by decide⟩, ?_⟩
    simp only [List.pairwise_cons, List.mem_cons, List.not_mem_nil, or_false, forall_eq_or_imp, forall_eq]
    exact ⟨⟨fun m h => h4 m h.1, fun m h => h4 m h.1⟩, fun m h => h5 m h.1, fun _ h => h.elim, List.Pairwise.nil⟩
  obtain ⟨t1, t2, -⟩ := feeds_exact_partial e [dropName] demoRows
  have hreq : ∀ src, FeedRequested [dropName] src ↔ src = dropName := by
    intro src
    unfold FeedRequested
    simp
  have hone : ∀ x ∈ theFeeds, x.1 = dropName → x = (dropName, FeedKind.drop, ascii "https://www.spamhaus.org/drop/drop.txt") :=
    fun x hx h => eq_of_nodup_map feed_names_distinct hx dropUrl h
  refine ⟨n, ?_, h3, fun m marks => ?_, fun m marks => ?_⟩
  · rw [t1]
    intro x hx hr
    rw [hone x hx ((hreq _).mp hr)]
    exact ⟨_, hw⟩
  · rw [t2]
    constructor
    · rintro ⟨x, hx, hx1, h⟩
      have := hone x hx hx1
      subst this
      rcases h with ⟨f, -, hf, rfl, lines, hl, l, hl1, hl2⟩ | ⟨hno, -⟩
      · have hff := hf.1
        simp only [hret] at hff
        injection hff with hff
        subst hff
        rw [← fileLines_unique hl, demo_file_lines.1] at hl1
        simp only [List.mem_cons, List.not_mem_nil, or_false] at hl1
        rcases hl1 with rfl | rfl | rfl
        · exact absurd hl2 (h4 m)
        · exact absurd hl2 (h5 m)
        · exact ⟨dropSays_unique hl2 h1, rfl⟩
      · exact absurd ⟨(hreq _).mpr rfl, hw⟩ (hno _)
    · rintro ⟨rfl, rfl⟩
      exact ⟨_, dropUrl, rfl, .inl ⟨_, (hreq _).mpr rfl, hw, rfl, _, hlines, _, List.mem_cons_of_mem _ (List.mem_cons_of_mem _ List.mem_cons_self), h1⟩⟩
  · have hne : awsName ≠ dropName := by decide
    rw [t2]
    constructor
    · rintro ⟨x, hx, hx1, ⟨f, hr, -⟩ | ⟨-, h⟩⟩
      · exact absurd ((hreq _).mp hr) hne
      · exact h
    · intro h
      obtain ⟨x, hx, hx1⟩ : ∃ x ∈ theFeeds, x.1 = awsName := by decide +kernel
      exact ⟨x, hx, hx1, .inr ⟨fun f hf => hne ((hreq _).mp hf.1), h⟩⟩

/-- An entry of AWS that stands for a row, one with an unknown region, and one that cannot be processed. -/
theorem demo_aws : (∃ n, AwsSays (demoFeeds "" .null) (demoAws "3.5.140.0/22" "ap-northeast-2") n (some (ascii "KR")) false) ∧
    AwsSane (demoFeeds "" .null) (demoAws "3.5.140.0/22" "mars-1") ∧ (∀ n cc a, ¬ AwsSays (demoFeeds "" .null) (demoAws "3.5.140.0/22" "mars-1") n cc a) ∧
    ¬ AwsSane (demoFeeds "" .null) (demoAws "3.5.140.1/22" "eu-west-1") := by
  refine ⟨?_, ?_, fun n cc a h => ?_, fun h => ?_⟩
  · have h : (awsSay (demoFeeds "" .null) (demoAws "3.5.140.0/22" "ap-northeast-2")).map (fun o => o.map (·.2)) =
        some (some (some (ascii "KR"), false)) := by decide +kernel
    obtain ⟨o, h1, h2⟩ := Option.map_eq_some_iff.mp h
    obtain ⟨⟨n, cc, a⟩, h3, h4⟩ := Option.map_eq_some_iff.mp h2
    cases h4
    exact ⟨n, awsSay_some.mp (by rw [h1, h3])⟩
  · rw [← awsSay_sane, ← Option.isSome_iff_ne_none]
    decide +kernel
  · have h1 := awsSay_some.mpr h
    have h2 : (awsSay (demoFeeds "" .null) (demoAws "3.5.140.0/22" "mars-1")).any (·.isNone) = true := by decide +kernel
    rw [h1] at h2
    cases h2
  · rw [← awsSay_sane, ← Option.isSome_iff_ne_none] at h
    revert h
    decide +kernel

/-- C77, violated: a network that is listed twice spoils the whole feed: nothing is imported. -/
theorem feeds_violated_twice : ∃ n, DropSays (demoFeeds "1.10.16.0/20\n\n1.10.16.0/20 ; SBL1\n" .null) (ascii "1.10.16.0/20\n") n ∧
    (let r := updateFeeds (demoFeeds "1.10.16.0/20\n\n1.10.16.0/20 ; SBL1\n" .null) [dropName] demoRows
    r.2 ≠ 0 ∧ ∀ m marks, ((m, dropName), marks) ∈ r.1.networks ↔ ((m, dropName), marks) ∈ demoRows.networks) := by
  obtain ⟨n, h1, h2, -⟩ := demo_lines "1.10.16.0/20\n\n1.10.16.0/20 ; SBL1\n" .null
  have hret := demo_retrieve "1.10.16.0/20\n\n1.10.16.0/20 ; SBL1\n" .null
  revert h1 h2 hret
  generalize demoFeeds "1.10.16.0/20\n\n1.10.16.0/20 ; SBL1\n" .null = e
  intro h1 h2 hret
  have hno : ∀ f, ¬ FeedWorks e .drop (ascii "https://www.spamhaus.org/drop/drop.txt") f := by
    rintro f ⟨hf, lines, hl, -, hp⟩
    rw [hret] at hf
    injection hf with hf
    subst hf
    rw [← fileLines_unique hl, demo_file_lines.2] at hp
    exact (List.pairwise_cons.mp hp).1 _ (List.mem_cons_of_mem _ List.mem_cons_self) n ⟨h2, h1⟩
  obtain ⟨t1, t2, -⟩ := feeds_exact_partial e [dropName] demoRows
  have hone : ∀ x ∈ theFeeds, x.1 = dropName → x = (dropName, FeedKind.drop, ascii "https://www.spamhaus.org/drop/drop.txt") :=
    fun x hx h => eq_of_nodup_map feed_names_distinct hx dropUrl h
  refine ⟨n, h2, fun h => ?_, fun m marks => ?_⟩
  · obtain ⟨f, hf⟩ := t1.mp h _ dropUrl (.inr List.mem_cons_self)
    exact hno f hf
  · rw [t2]
    constructor
    · rintro ⟨x, hx, hx1, h⟩
      have := hone x hx hx1
      subst this
      rcases h with ⟨f, -, hf, -⟩ | ⟨-, h⟩
      · exact absurd hf (hno f)
      · exact h
    · exact fun h => ⟨_, dropUrl, rfl, .inr ⟨fun f hf => hno f hf.2, h⟩⟩

/-- C77, violated: a page saying that the feed is not available counts as an empty feed: the rows of the earlier run are lost, and
    the exit code is 0. -/
theorem feeds_violated_page :
    updateFeeds (demoFeeds "<html>Try later</html>\n" .null) [dropName] demoRows = (dropSource dropName demoRows, 0) := by decide +kernel

/-- C77, violated: one entry which is no network spoils the whole feed: nothing is imported. -/
theorem feeds_violated_entry :
    updateFeeds (demoFeeds "" (.object [(ascii "prefixes", .list [demoAws "3.5.140.0/22" "ap-northeast-2", demoAws "3.5.140.1/22" "eu-west-1"])])) [awsName] demoRows = (demoRows, 1) := by
  decide +kernel

end Loc.Props
