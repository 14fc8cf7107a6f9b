import Verif.Lemmas.Announce
/-
C75: importing routes from BIRD (`location-importer update-announcements`).
-/
namespace Loc.Props
open Loc Loc.Spec

/-! ### What is read -/

/-- C75: the reply of the server is read line by line, whatever the pieces it arrives in. -/
theorem announce_lines {chunks chunks' lines : List Bytes} (h : BirdReply chunks lines) (h' : BirdReply chunks' lines) :
    birdRead [] chunks = birdRead [] chunks' ∧ (birdRead [] chunks).2 = true := by
  rw [birdRead_reply h, birdRead_reply h']
  exact ⟨rfl, rfl⟩

/-- C75 (partial): the routes of a reply as BIRD normally sends it, in pieces of any size, become the contents of the table:
    each network is there with the AS that was last named for it and the current time, the others remain as they were, and
    then only what is to be kept remains.
    Missing: replies with further routes to the same network, with protocols whose names begin with "AS", and with errors; see
    below. -/
theorem announcements_exact_partial {e : AnnounceEnv} {server : Bytes} {t : AnnounceTable} {ls : List RouteLine}
    {named asked : List (Network × Nat)} (hs : server.head? = some 47) (ht : (t.map (·.1)).Nodup) (htb : ∀ r ∈ t, Block r.1)
    (hr : BirdReply (e.bird (ascii "show route")) (ls.map RouteLine.text)) (hok : ∀ x ∈ ls, x.Ok)
    (hn : Originates ls named) (ha : Aggregates e.bird ls asked) :
    ∃ t', updateAnnouncements e server t = .done t' ∧ (t'.map (·.1)).Nodup ∧
      ∀ n a seen, (n, a, seen) ∈ t' ↔ RouteKept e.now n a seen ∧
        ((LastWord (named ++ asked) n a ∧ seen = e.now) ∨ ((∀ x ∈ named ++ asked, x.1 ≠ n) ∧ (n, a, seen) ∈ t)) := by
  have hcmd : ascii "show route" = strShowRoute := by decide +kernel
  rw [hcmd] at hr
  have hb : importBird e t = .done ((named ++ asked).foldl (putSeen e.now) t) := by
    unfold importBird
    rw [birdRead_reply hr]
    simp only
    rw [importRoutes_exact hn hok]
    simp only [if_true, List.nil_append]
    rw [importAggregated_exact ha, List.foldl_append]
  refine ⟨_, by unfold updateAnnouncements; rw [if_pos hs, hb], ?_, fun n a seen => ?_⟩
  · exact (keys_putAll ht).sublist (List.Sublist.map _ List.filter_sublist)
  · rw [List.mem_filter]
    have hblock : (n, a, seen) ∈ (named ++ asked).foldl (putSeen e.now) t → Block n := by
      intro h
      rcases mem_putAll.mp h with ⟨⟨pre, post, hw, -⟩, -⟩ | ⟨-, h⟩
      · have hx : (n, a) ∈ named ++ asked := by rw [hw]; simp
        rcases List.mem_append.mp hx with hx | hx
        · obtain ⟨name, h⟩ := originates_block hn _ hx; exact names_block h
        · obtain ⟨name, h⟩ := aggregates_block ha _ hx; exact names_block h
      · exact htb _ h
    constructor
    · rintro ⟨h1, h2⟩
      exact ⟨(keepRow_iff (hblock h1)).mp h2, mem_putAll.mp h1⟩
    · rintro ⟨h1, h2⟩
      have h2 := mem_putAll.mpr h2
      exact ⟨h2, (keepRow_iff (hblock h2)).mpr h1⟩

/-- C75: without a server nothing is read, but what is not to be kept is removed all the same. -/
theorem announcements_purge {e : AnnounceEnv} {server : Bytes} {t : AnnounceTable} (hs : server.head? ≠ some 47) (htb : ∀ r ∈ t, Block r.1) :
    ∃ t', updateAnnouncements e server t = .done t' ∧ ∀ n a seen, (n, a, seen) ∈ t' ↔ RouteKept e.now n a seen ∧ (n, a, seen) ∈ t := by
  refine ⟨_, by unfold updateAnnouncements; rw [if_neg hs], fun n a seen => ?_⟩
  rw [List.mem_filter]
  exact ⟨fun ⟨h1, h2⟩ => ⟨(keepRow_iff (htb _ h1)).mp h2, h1⟩, fun ⟨h1, h2⟩ => ⟨h2, (keepRow_iff (htb _ h2)).mpr h1⟩⟩

/-- C75: if the database cannot take one of the routes, the command fails, and nothing is changed. -/
theorem announcements_refused {e : AnnounceEnv} {server : Bytes} {t : AnnounceTable} {ls : List RouteLine} (hs : server.head? = some 47)
    (hr : BirdReply (e.bird (ascii "show route")) (ls.map RouteLine.text)) (hok : ∀ x ∈ ls, x.Ok) (hu : RouteRefused e.bird ls) :
    updateAnnouncements e server t = .failed := by
  have hcmd : ascii "show route" = strShowRoute := by decide +kernel
  rw [hcmd] at hr
  have hb : importBird e t = .failed := by
    unfold importBird
    rw [birdRead_reply hr]
    simp only
    rcases importRoutes_some hok t [] with h | ⟨h1, t', h2⟩
    · rw [h]
    · rw [h2]
      simp only [if_true, List.nil_append]
      rcases hu with ⟨name, info, d, mark, hm, hx⟩ | ⟨ha, name, info, mark, lines, d, hm, hl, hf, hx⟩
      · exact absurd hx (h1 _ _ _ _ hm)
      · exact importAggregated_refused ha hm hl hf hx t'
  unfold updateAnnouncements
  rw [if_pos hs, hb]

/-- C75: a route with an empty number is treated like one without a number: its network is asked for again. -/
theorem announcements_empty_number {e e' : AnnounceEnv} {server : Bytes} {t : AnnounceTable} {ls : List RouteLine}
    (hr : BirdReply (e.bird (ascii "show route")) (ls.map RouteLine.text))
    (hr' : BirdReply (e'.bird (ascii "show route")) (ls.map fun x => x.blank.text)) (hok : ∀ x ∈ ls, x.blank.Ok)
    (hb : ∀ c, c ≠ ascii "show route" → e'.bird c = e.bird c) (hnow : e'.now = e.now) :
    updateAnnouncements e server t = updateAnnouncements e' server t := by
  have hcmd : ascii "show route" = strShowRoute := by decide +kernel
  rw [hcmd] at hr hr' hb
  have h : importBird e t = importBird e' t := by
    unfold importBird
    rw [birdRead_reply hr, birdRead_reply hr']
    simp only
    rw [importRoutes_blank hnow ls hok]
    simp only [importAggregated_same hnow hb]
  unfold updateAnnouncements
  rw [h, hnow]

/-- Such a line, and what it is treated like -/
example : (RouteLine.route (ascii "8.8.8.0/24") (ascii " unicast ") (some []) 105).text = ascii " 8.8.8.0/24  unicast [ASi]" ∧
    (RouteLine.route (ascii "8.8.8.0/24") (ascii " unicast ") (some []) 105).blank.text = ascii " 8.8.8.0/24  unicast [i]" ∧
    (RouteLine.route (ascii "8.8.8.0/24") (ascii " unicast ") (some []) 105).blank.Ok := by
  refine ⟨by decide +kernel, by decide +kernel, by decide +kernel, by decide +kernel, fun d h => ?_, by decide⟩
  cases h

/-- A network that is too long, and a number that is too large -/
example : Unusable (ascii "8.8.8.0/33") (ascii "15169") ∧ Unusable (ascii "8.8.8.0/24") (ascii "9223372036854775808") := by
  refine ⟨.inl fun n h => ?_, .inr fun a h => ?_⟩
  · have := ipNetwork_iff.mpr h
    revert this
    have : ipNetwork (ascii "8.8.8.0/33") = none := by decide +kernel
    rw [this]
    exact fun h => by cases h
  · have h1 : digitsOf (ascii "9223372036854775808") = some a := digitsOf_iff.mpr h
    have h2 : digitsOf (ascii "9223372036854775808") = some 9223372036854775808 := by decide +kernel
    rw [h2] at h1
    cases h1
    decide

/-! ### A reply -/

/-- The reply to "show route", as BIRD sends it, up to the last line -/
def sampleRoutes : List RouteLine :=
  [.other (ascii "1007-Table master4:"),
    .route (ascii "8.8.8.0/24") (ascii "           unicast [upstream1 2024-05-01] * (100) ") (some (ascii "15169")) 105,
    .other (ascii " \tvia 192.0.2.1 on eth0"),
    .route (ascii "10.0.0.0/8") (ascii "           unicast [upstream1 2024-05-01] * (100) ") (some (ascii "64500")) 105,
    .route (ascii "2001:db0::/32") (ascii "        unicast [upstream1 2024-05-01] * (100) ") none 105]

def sampleDetails : List Bytes :=
  [ascii "1007-Table master6:", ascii " 2001:db0::/32        unicast [upstream1 2024-05-01] * (100) [i]",
    ascii "1012-\tBGP.origin: IGP", ascii " \tBGP.as_path: 3320 680 {1754}"]

def pack (ls : List Bytes) : Bytes := ascii "0001 BIRD 2.0.12 ready.\n" ++ (ls.map (· ++ [10])).flatten ++ ascii "0000 \n"

/-- The server sends everything in pieces of seven bytes. -/
def inSevens : Nat → Bytes → List Bytes
  | 0, _ => []
  | fuel + 1, s => if s.isEmpty then [] else s.take 7 :: inSevens fuel (s.drop 7)

def sampleBird (command : Bytes) : List Bytes :=
  let reply := if command = ascii "show route" then pack (sampleRoutes.map RouteLine.text)
    else if command = ascii "show route 2001:db0::/32 all" then pack sampleDetails else []
  inSevens reply.length reply

def netGoogle : Network := inet4 8 8 8 0 24
def netTen : Network := inet4 10 0 0 0 8
def netDb0 : Network := ⟨.inet6, addrOfNat (0x20010db0 * 2 ^ 96), addrOfNat (0x20010db0 * 2 ^ 96 + (2 ^ 96 - 1)), 32, 0, 0, 0, 0⟩

theorem sample_reply (ls : List Bytes) (chunks : List Bytes) (h1 : ∀ t ∈ ls, PlainLine t) (h2 : chunks.flatten = pack ls) : BirdReply chunks ls := by
  refine ⟨h1, ascii "BIRD 2.0.12 ready.", [], [], by decide, by decide, ?_⟩
  rw [h2]
  have e1 : ascii "0001 BIRD 2.0.12 ready.\n" = ascii "0001 " ++ ascii "BIRD 2.0.12 ready." ++ [10] := by decide +kernel
  have e2 : ascii "0000 \n" = ascii "0000 " ++ [] ++ [10] ++ [] := by decide +kernel
  unfold pack
  rw [e1, e2]
  simp only [List.append_assoc]

def emptyRoutes : List RouteLine := [.route (ascii "8.8.8.0/24") (ascii " unicast ") (some []) 105]

/-- The hypotheses of `announcements_empty_number` hold for two servers, one with "[ASi]", the other with "[i]". -/
example (now : Nat) (t : AnnounceTable) :
    updateAnnouncements ⟨fun c => if c = ascii "show route" then [pack (emptyRoutes.map RouteLine.text)] else sampleBird c, now⟩ (ascii "/run/bird.ctl") t =
      updateAnnouncements ⟨fun c => if c = ascii "show route" then [pack (emptyRoutes.map fun x => x.blank.text)] else sampleBird c, now⟩
        (ascii "/run/bird.ctl") t := by
  refine announcements_empty_number (ls := emptyRoutes) ?_ ?_ ?_ ?_ rfl
  · simp only [if_true]; exact sample_reply _ _ (by decide +kernel) (by simp)
  · simp only [if_true]; exact sample_reply _ _ (by decide +kernel) (by simp)
  · intro x hx
    simp only [emptyRoutes, List.mem_cons, List.not_mem_nil, or_false] at hx
    subst hx
    refine ⟨by decide +kernel, by decide +kernel, fun d h => ?_, by decide⟩
    cases h
  · intro c hc
    simp only [if_neg hc]

/-- The hypotheses of `announcements_exact_partial` hold for this server. -/
theorem sample_hypotheses : BirdReply (sampleBird (ascii "show route")) (sampleRoutes.map RouteLine.text) ∧ (∀ x ∈ sampleRoutes, x.Ok) ∧
    Originates sampleRoutes [(netGoogle, 15169), (netTen, 64500)] ∧ Aggregates sampleBird sampleRoutes [(netDb0, 680)] := by
  have d1 : Digits 15169 (ascii "15169") := digitsOf_iff.mp (by decide +kernel)
  have d2 : Digits 64500 (ascii "64500") := digitsOf_iff.mp (by decide +kernel)
  have d3 : Digits 680 (ascii "680") := digitsOf_iff.mp (by decide +kernel)
  have d4 : Digits 1754 (ascii "1754") := digitsOf_iff.mp (by decide +kernel)
  have n1 : NamesNet (ascii "8.8.8.0/24") netGoogle := ipNetwork_iff.mp (by decide +kernel)
  have n2 : NamesNet (ascii "10.0.0.0/8") netTen := ipNetwork_iff.mp (by decide +kernel)
  have n3 : NamesNet (ascii "2001:db0::/32") netDb0 := ipNetwork_iff.mp (by decide +kernel)
  refine ⟨sample_reply _ _ (by decide +kernel) (by decide +kernel), ?_, ?_, ?_⟩
  · have hname : ∀ s ∈ [ascii "8.8.8.0/24", ascii "10.0.0.0/8", ascii "2001:db0::/32"], s ≠ [] ∧ ∀ c ∈ s, ¬ GapChar c := by decide +kernel
    have hinfo : ∀ s ∈ [ascii "           unicast [upstream1 2024-05-01] * (100) ", ascii "        unicast [upstream1 2024-05-01] * (100) "],
        s ≠ [] ∧ 10 ∉ s ∧ ¬ ascii "[AS" <:+: s := by decide +kernel
    intro x hx
    simp only [sampleRoutes, List.mem_cons, List.not_mem_nil, or_false] at hx
    rcases hx with rfl | rfl | rfl | rfl | rfl
    · show PlainLine _ ∧ _ ; decide +kernel
    · exact ⟨hname _ (by simp), hinfo _ (by simp), fun d h => (by cases h; exact ⟨_, d1⟩), by decide⟩
    · show PlainLine _ ∧ _ ; decide +kernel
    · exact ⟨hname _ (by simp), hinfo _ (by simp), fun d h => (by cases h; exact ⟨_, d2⟩), by decide⟩
    · exact ⟨hname _ (by simp), hinfo _ (by simp), fun d h => (by cases h), by decide⟩
  · exact .other (.route n1 d1 (by decide +kernel) (.other (.route n2 d2 (by decide +kernel) (.aggregated .nil))))
  · refine .other (.route (.other (.route (.found (lines := sampleDetails) (d := ascii "680") ?_ ?_ n3 d3 (by decide +kernel) .nil))))
    · exact sample_reply _ _ (by decide +kernel) (by decide +kernel)
    · refine (firstPath_iff (by decide +kernel)).mp (by decide +kernel)

/-- Hence 8.8.8.0/24 and 2001:db0::/32 are in the table afterwards, and nothing inside 10.0.0.0/8. -/
example {t : AnnounceTable} (ht : (t.map (·.1)).Nodup) (htb : ∀ r ∈ t, Block r.1) :
    ∃ t', updateAnnouncements ⟨sampleBird, 2000000⟩ (ascii "/run/bird.ctl") t = .done t' ∧
      ∀ n a seen, (n, a, seen) ∈ t' ↔ RouteKept 2000000 n a seen ∧
        ((LastWord [(netGoogle, 15169), (netTen, 64500), (netDb0, 680)] n a ∧ seen = 2000000) ∨
          ((∀ x ∈ [(netGoogle, 15169), (netTen, 64500), (netDb0, 680)], x.1 ≠ n) ∧ (n, a, seen) ∈ t)) := by
  obtain ⟨h1, h2, h3, h4⟩ := sample_hypotheses
  obtain ⟨e, he⟩ : ∃ e : AnnounceEnv, e = ⟨sampleBird, 2000000⟩ := ⟨_, rfl⟩
  have eb : e.bird = sampleBird := by rw [he]
  have en : e.now = 2000000 := by rw [he]
  rw [← eb] at h1 h4
  obtain ⟨t', h, -, h'⟩ := announcements_exact_partial (server := ascii "/run/bird.ctl") (by decide +kernel) ht htb h1 h2 h3 h4
  rw [he] at h
  rw [en] at h'
  exact ⟨t', h, h'⟩

/-! ### Violations -/

/-- A server that replies to every command with these lines -/
def birdSaying (s : String) : Bytes → List Bytes := fun _ => [ascii s]

/-- C75, violated: a second route to a network, which BIRD lists in a line without the network, makes the whole import fail:
    nothing is imported at all. -/
theorem announcements_violated_second : updateAnnouncements ⟨birdSaying
    "0001 BIRD 2.0.12 ready.\n1007-Table master4:\n 8.8.8.0/24           unicast [up1 2024-05-01] * (100) [AS15169i]\n                      unicast [up2 2024-05-01] (100) [AS15169i]\n0000 \n", 2000000⟩
    (ascii "/run/bird.ctl") [] = .failed := by decide +kernel

/-- C75, violated: so does the name of a protocol that begins with "AS". -/
theorem announcements_violated_protocol : updateAnnouncements ⟨birdSaying
    "0001 BIRD 2.0.12 ready.\n1007-Table master4:\n 8.8.8.0/24           unicast [AS3320_v4 2024-05-01] * (100) [AS15169i]\n0000 \n", 2000000⟩
    (ascii "/run/bird.ctl") [] = .failed := by decide +kernel

/-- C75, violated: an error in reply to a command, here because the route has been withdrawn meanwhile, makes the import wait
    for ever. -/
theorem announcements_violated_error : updateAnnouncements ⟨fun command => if command = ascii "show route" then
    [ascii "0001 BIRD 2.0.12 ready.\n1007-Table master4:\n 8.8.8.0/24           unicast [up1 2024-05-01] * (100) [i]\n0000 \n"]
    else [ascii "0001 BIRD 2.0.12 ready.\n8001 Network not found\n"], 2000000⟩ (ascii "/run/bird.ctl") [] = .endless := by decide +kernel

/-- C75, violated: whenever the server closes the connection before the end of its output, the import never ends. -/
theorem announcements_violated_closed {e : AnnounceEnv} {server : Bytes} {t : AnnounceTable} (hs : server.head? = some 47)
    (h : e.bird (ascii "show route") = []) : updateAnnouncements e server t = .endless := by
  have hcmd : ascii "show route" = strShowRoute := by decide +kernel
  rw [hcmd] at h
  unfold updateAnnouncements importBird
  rw [if_pos hs, h]
  rfl

/-- C75, violated: an empty line is never passed: the import waits for ever although the end of the output has arrived. -/
theorem announcements_violated_empty : updateAnnouncements ⟨birdSaying
    "0001 BIRD 2.0.12 ready.\n\n0000 \n", 2000000⟩ (ascii "/run/bird.ctl") [] = .endless := by decide +kernel

/-- C75, violated: networks around those that are never wanted are kept: here one that contains 192.168.0.0/16. -/
theorem announcements_violated_around : (∃ m, NamesNet (ascii "192.168.0.0/16") m ∧ Inside m (inet4 192 0 0 0 8)) ∧
    updateAnnouncements ⟨birdSaying
      "0001 BIRD 2.0.12 ready.\n1007-Table master4:\n 192.0.0.0/8          unicast [up1 2024-05-01] * (100) [AS3320i]\n0000 \n", 2000000⟩
      (ascii "/run/bird.ctl") [] = .done [(inet4 192 0 0 0 8, 3320, 2000000)] := by
  refine ⟨⟨inet4 192 168 0 0 16, ipNetwork_iff.mp (by decide +kernel), ?_⟩, by decide +kernel⟩
  have hv : value (inet4 192 0 0 0 8).first ≤ value (inet4 192 168 0 0 16).first ∧
      value (inet4 192 168 0 0 16).last ≤ value (inet4 192 0 0 0 8).last := by decide +kernel
  exact fun a h => ⟨Nat.le_trans hv.1 h.1, Nat.le_trans h.2 hv.2⟩

end Loc.Props
