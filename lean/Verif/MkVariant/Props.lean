import Verif.MkVariant.Lemmas

/-! C96: `tup variant`. -/

namespace Tup.MkVariant

open Tup.Symlink
open Tup.Pel (Comps Name)

variable {chdir : Disk → Str → Option Nat} {k : Disk} {sub config : Str} {S q : Nat}

/-- There is a kernel. -/
theorem kernel_exists : ∃ chdir, Kernel chdir := by
  classical
  refine ⟨fun k s => if h : ∃ q, Opens k.fs k.top s q ∧ k.isDir q = true then some h.choose else none, fun k s q => ?_⟩
  dsimp only
  constructor
  · intro h
    split at h
    · next hx => cases h; exact hx.choose_spec
    · cases h
  · intro h
    have hx : ∃ q, Opens k.fs k.top s q ∧ k.isDir q = true := ⟨q, h⟩
    rw [dif_pos hx]
    exact congrArg some (opens_unique hx.choose_spec.1 h.1)

/-- The directory of a variant is `build-` and the name of the file up to its first dot. -/
theorem c96_name (hg : k.Good) (h : (createVariant chdir sub config k).2 = true) :
    ∃ stem, Stem config stem ∧ dirName config = "build-".toList ++ stem := by
  obtain ⟨hm, -⟩ := create_ok h
  obtain ⟨stem, h1, h2, _⟩ := dirName_stem (makeDir_ok hg hm).1
  exact ⟨stem, h1, h2⟩

/-- The directory in which the link is, and where it is. -/
theorem create_dir (hk : Kernel chdir) (hg : k.Good) (hn : ∀ i, k.fs.entry k.top (dirName config) = some i → k.fs.link i = none)
    (h : (createVariant chdir sub config k).2 = true) : ∃ D i,
      (createVariant chdir sub config k).1.Good ∧ Ext k (createVariant chdir sub config k).1 ∧
      (createVariant chdir sub config k).1.fs.entry k.top (dirName config) = some D ∧
      (createVariant chdir sub config k).1.fs.link D = none ∧ (createVariant chdir sub config k).1.isDir D = true ∧
      (createVariant chdir sub config k).1.fs.entry D "tup.config".toList = some i ∧
      (createVariant chdir sub config k).1.fs.link i = some (linkText sub config) ∧
      (∀ d m j, (createVariant chdir sub config k).1.fs.entry d m = some j →
        k.fs.entry d m = some j ∨ d = k.top ∧ m = dirName config ∧ j = D ∨ d = D ∧ m = "tup.config".toList ∧ j = i) := by
  obtain ⟨hm, D, hc, he, heq⟩ := create_ok h
  obtain ⟨hlen, hg1, hx1, hor⟩ := makeDir_ok hg hm
  have hname := dirName_name hlen
  have hkc := (hk _ _ _).1 hc
  have hDlt := hg1.dirLt _ hkc.2
  -- the entry
  have hent : ∃ j, (makeDir chdir k (dirName config)).1.fs.entry k.top (dirName config) = some j ∧
      (makeDir chdir k (dirName config)).1.fs.link j = none := by
    rcases hor with ⟨h0, h1⟩ | ⟨h0, h1, _⟩
    · rw [h1]
      refine ⟨k.next, if_pos ⟨rfl, rfl⟩, ?_⟩
      show k.fs.link k.next = none
      cases hl : k.fs.link k.next with
      | none => rfl
      | some t => have := (hg.linkLt _ _ hl).1; omega
    · rw [h1]
      obtain ⟨j, hj⟩ := Option.isSome_iff_exists.1 h0
      exact ⟨j, hj, hn j hj⟩
  obtain ⟨j, hj, hjl⟩ := hent
  have hjD : D = j := by
    have h1 := hkc.1
    rw [hx1.top] at h1
    exact (opens_name hname hj hjl).1 h1
  subst hjD
  have hx2 := symlink_ext (t := linkText sub config) he
  have hold : ∀ d m j, (makeDir chdir k (dirName config)).1.fs.entry d m = some j →
      k.fs.entry d m = some j ∨ d = k.top ∧ m = dirName config ∧ j = D := by
    intro d m j' h'
    rcases hor with ⟨h0, h1⟩ | ⟨h0, h1, _⟩
    · by_cases hdm : d = k.top ∧ m = dirName config
      · rw [hdm.1, hdm.2, hj] at h'
        exact .inr ⟨hdm.1, hdm.2, (Option.some.inj h').symm⟩
      · left
        rw [h1] at h'
        exact (if_neg hdm).symm.trans h'
    · left; rwa [h1] at h'
  rw [heq]
  refine ⟨D, (makeDir chdir k (dirName config)).1.next, symlink_good hg1 hDlt, hx1.trans hx2, hx2.entry _ _ _ hj, ?_, hkc.2, if_pos ⟨rfl, rfl⟩, if_pos rfl, ?_⟩
  · rw [hx2.link _ hDlt]; exact hjl
  · intro d m j' h'
    by_cases hdm : d = D ∧ m = "tup.config".toList
    · have : some (makeDir chdir k (dirName config)).1.next = some j' := (if_pos hdm).symm.trans h'
      exact .inr (.inr ⟨hdm.1, hdm.2, (Option.some.inj this).symm⟩)
    · have h2 : (makeDir chdir k (dirName config)).1.fs.entry d m = some j' := (if_neg hdm).symm.trans h'
      rcases hold d m j' h2 with h3 | h3
      · exact .inl h3
      · exact .inr (.inl h3)

/-- What the tup.config of a directory is: the components of the path, from the directory in which the command was given. -/
theorem opens_config {k' : Disk} (hg : k'.Good) {n : Str} {D i : Nat} (hn : Name n) (he : k'.fs.entry k'.top n = some D)
    (hl : k'.fs.link D = none) (hd : k'.isDir D = true) (hi : k'.fs.entry D "tup.config".toList = some i)
    (ht : k'.fs.link i = some (linkText sub config)) (hs : Opens k'.fs k'.top sub S) (hsub : sub.head? ≠ some '/') :
    Opens k'.fs k'.top (n ++ "/tup.config".toList) q ↔ ∃ l, Comps config l ∧ Walk k'.fs S l q := by
  have h1 : Opens k'.fs k'.top (n ++ "/".toList) D := by
    refine ⟨[n], comps_slash (comps_name hn), ?_⟩
    have : k'.fs.start k'.top (n ++ "/".toList) = k'.top := by
      unfold Fs.start
      rw [if_neg]
      have := name_head hn
      obtain ⟨c, n', rfl⟩ := List.exists_cons_of_ne_nil hn.1
      simpa using this
    rw [this]
    exact .down hn he hl (.here _)
  rw [show n ++ "/tup.config".toList = (n ++ "/".toList) ++ "tup.config".toList from by
      rw [List.append_assoc]; congr 1,
    opens_join h1 (.inr last_slash) (name_head tc_name), opens_link tc_name hi ht linkText_ne]
  obtain ⟨ls, hls, hws⟩ := hs
  obtain ⟨lc, hlc⟩ := Tup.Pel.comps_exists config
  have hst : k'.fs.start k'.top sub = k'.top := by unfold Fs.start; rw [if_neg hsub]
  rw [hst] at hws
  have hst2 : k'.fs.start D (linkText sub config) = D := by unfold Fs.start; rw [if_neg linkText_head]
  unfold Opens
  rw [hst2]
  have hpar := hg.parent _ _ _ he hd
  constructor
  · rintro ⟨m, hm, hw⟩
    rw [comps_unique hm (linkText_comps hls hlc)] at hw
    refine ⟨lc, hlc, ?_⟩
    generalize hdd : ("..".toList : Str) = dd at hw
    cases hw with
    | dot => exact absurd hdd.symm dot_up
    | up hw =>
      rw [hpar] at hw
      obtain ⟨j, h1, h2⟩ := walk_append.1 hw
      rwa [walk_unique hws _ h1]
    | down hnn => rw [← hdd] at hnn; exact absurd hnn name_up
    | link hnn => rw [← hdd] at hnn; exact absurd hnn name_up
  · rintro ⟨m, hm, hw⟩
    rw [comps_unique hm hlc] at hw
    exact ⟨_, linkText_comps hls hlc, .up (by rw [hpar]; exact walk_append.2 ⟨S, hws, hw⟩)⟩

/-- The tup.config of the new directory is the file that was given. -/
theorem c96_opens (hk : Kernel chdir) (hg : k.Good) (hn : ∀ i, k.fs.entry k.top (dirName config) = some i → k.fs.link i = none)
    (hs : Opens k.fs k.top sub S) (hsub : sub.head? ≠ some '/') (hc : config.head? ≠ some '/') (hq : Opens k.fs S config q)
    (h : (createVariant chdir sub config k).2 = true) (q' : Nat) :
    Opens (createVariant chdir sub config k).1.fs k.top (dirName config ++ "/tup.config".toList) q' ↔ q' = q := by
  obtain ⟨D, i, h1, h2, h3, h4, h5, h6, h7, -⟩ := create_dir hk hg hn h
  have hname := dirName_name (makeDir_ok hg (create_ok h).1).1
  have hS := opens_lt hg hg.top hs
  have := opens_config (q := q') h1 hname (by rw [h2.top]; exact h3) h4 h5 h6 h7 (by rw [h2.top]; exact opens_ext hg h2 hg.top hs) hsub
  rw [h2.top] at this
  rw [this]
  have hq' := opens_ext hg h2 hS hq
  obtain ⟨l, hl, hw⟩ := hq'
  have hst : (createVariant chdir sub config k).1.fs.start S config = S := by unfold Fs.start; rw [if_neg hc]
  rw [hst] at hw
  constructor
  · rintro ⟨m, hm, hw'⟩
    rw [comps_unique hm hl] at hw'
    exact (walk_unique hw _ hw').symm
  · rintro rfl
    exact ⟨l, hl, hw⟩

/-- An absolute path is taken from the directory of the command, not from the root. -/
theorem c96_absolute (hk : Kernel chdir) (hg : k.Good) (hn : ∀ i, k.fs.entry k.top (dirName ('/' :: config)) = some i → k.fs.link i = none)
    (hs : Opens k.fs k.top sub S) (hsub : sub.head? ≠ some '/') (hc : config.head? ≠ some '/')
    (h : (createVariant chdir sub ('/' :: config) k).2 = true) :
    Opens (createVariant chdir sub ('/' :: config) k).1.fs k.top (dirName ('/' :: config) ++ "/tup.config".toList) q ↔
      Opens (createVariant chdir sub ('/' :: config) k).1.fs S config q := by
  obtain ⟨D, i, h1, h2, h3, h4, h5, h6, h7, -⟩ := create_dir hk hg hn h
  have hname := dirName_name (makeDir_ok hg (create_ok h).1).1
  have := opens_config (q := q) h1 hname (by rw [h2.top]; exact h3) h4 h5 h6 h7 (by rw [h2.top]; exact opens_ext hg h2 hg.top hs) hsub
  rw [h2.top] at this
  rw [this]
  have hst : (createVariant chdir sub ('/' :: config) k).1.fs.start S config = S := by unfold Fs.start; rw [if_neg hc]
  unfold Opens
  rw [hst]
  obtain ⟨lc, hlc⟩ := Tup.Pel.comps_exists config
  have hlc' : Comps ('/' :: config) lc := comps_lead (w := ['/']) (by simp) hlc
  constructor
  · rintro ⟨m, hm, hw⟩
    rw [comps_unique hm hlc'] at hw
    exact ⟨lc, hlc, hw⟩
  · rintro ⟨m, hm, hw⟩
    rw [comps_unique hm hlc] at hw
    exact ⟨lc, hlc', hw⟩

/-- Nothing is changed but that the directory and the link in it come into being. -/
theorem c96_only (hk : Kernel chdir) (hg : k.Good) (hn : ∀ i, k.fs.entry k.top (dirName config) = some i → k.fs.link i = none)
    (h : (createVariant chdir sub config k).2 = true) :
    Ext k (createVariant chdir sub config k).1 ∧ ∃ D, (createVariant chdir sub config k).1.fs.entry k.top (dirName config) = some D ∧
      ∀ d m, k.fs.entry d m = none → ((createVariant chdir sub config k).1.fs.entry d m).isSome →
        d = k.top ∧ m = dirName config ∨ d = D ∧ m = "tup.config".toList := by
  obtain ⟨D, i, h1, h2, h3, h4, h5, h6, h7, h8⟩ := create_dir hk hg hn h
  refine ⟨h2, D, h3, fun d m hnone hsome => ?_⟩
  obtain ⟨j, hj⟩ := Option.isSome_iff_exists.1 hsome
  rcases h8 d m j hj with h | h | h
  · rw [hnone] at h; cases h
  · exact .inl ⟨h.1, h.2.1⟩
  · exact .inr ⟨h.1, h.2.1⟩

/-- The condition on the name stays, for all names. -/
theorem plain_keep (hk : Kernel chdir) (hg : k.Good) (hn : ∀ i, k.fs.entry k.top (dirName config) = some i → k.fs.link i = none)
    (h : (createVariant chdir sub config k).2 = true) {c : Str} (hc : ∀ i, k.fs.entry k.top (dirName c) = some i → k.fs.link i = none) :
    ∀ i, (createVariant chdir sub config k).1.fs.entry (createVariant chdir sub config k).1.top (dirName c) = some i →
      (createVariant chdir sub config k).1.fs.link i = none := by
  obtain ⟨D, j, h1, h2, h3, h4, h5, h6, h7, h8⟩ := create_dir hk hg hn h
  intro i hi
  rw [h2.top] at hi
  rcases h8 _ _ _ hi with h' | ⟨_, _, rfl⟩ | ⟨_, h', _⟩
  · rw [h2.link _ (hg.entryLt _ _ _ h').2]
    exact hc i h'
  · exact h4
  · exact absurd h' dirName_ne

/-- A directory with a tup.config is not taken a second time. -/
theorem create_taken (hk : Kernel chdir) (hg : k.Good) {D i : Nat} (he : k.fs.entry k.top (dirName config) = some D)
    (hl : k.fs.link D = none) (hi : k.fs.entry D "tup.config".toList = some i) :
    (createVariant chdir sub config k).2 = false := by
  cases h : (createVariant chdir sub config k).2 with
  | false => rfl
  | true =>
    obtain ⟨hm, -⟩ := create_ok h
    obtain ⟨hlen, -, -, hor⟩ := makeDir_ok hg hm
    rcases hor with ⟨h0, _⟩ | ⟨_, _, D', hD', hemp⟩
    · rw [he] at h0; cases h0
    · have := (opens_name (dirName_name hlen) he hl).1 ((hk _ _ _).1 hD').1
      subst this
      have hmem := (hg.names D' "tup.config".toList).2 (by rw [hi]; rfl)
      unfold dirEmpty at hemp
      have := List.all_eq_true.1 hemp _ hmem
      exact absurd this (by decide +kernel)

/-- What is there when some variants have been made, for the induction. -/
theorem variants_ok (hk : Kernel chdir) (hsub : sub.head? ≠ some '/') {cs : List Str} : ∀ {k : Disk}, k.Good →
    (∀ c ∈ cs, ∀ i, k.fs.entry k.top (dirName c) = some i → k.fs.link i = none) → (variants chdir sub cs k).2 = true →
    Ext k (variants chdir sub cs k).1 ∧
    (∀ D i n, k.fs.entry k.top n = some D → k.fs.link D = none → k.fs.entry D "tup.config".toList = some i → ∀ c ∈ cs, dirName c ≠ n) ∧
    (cs.map dirName).Nodup ∧
    ∀ c ∈ cs, c.head? ≠ some '/' → ∀ S q, Opens k.fs k.top sub S → Opens k.fs S c q →
      ∀ q', Opens (variants chdir sub cs k).1.fs k.top (dirName c ++ "/tup.config".toList) q' ↔ q' = q := by
  induction cs with
  | nil => exact fun hg _ _ => ⟨.refl _, fun _ _ _ _ _ _ _ h => absurd h List.not_mem_nil, List.nodup_nil, fun _ h => absurd h List.not_mem_nil⟩
  | cons c cs ih =>
    intro k hg hn h
    rw [variants] at h ⊢
    cases hc : (createVariant chdir sub c k).2 with
    | false => rw [hc] at h; cases h
    | true =>
      rw [hc] at h
      rw [if_pos rfl] at h ⊢
      have hnc := hn c List.mem_cons_self
      obtain ⟨D, i, h1, h2, h3, h4, h5, h6, h7, h8⟩ := create_dir hk hg hnc hc
      obtain ⟨g1, g2, g3, g4⟩ := ih h1 (fun c' hc' => plain_keep hk hg hnc hc (hn c' (List.mem_cons_of_mem _ hc'))) h
      refine ⟨h2.trans g1, ?_, ?_, ?_⟩
      · intro D' i' n e1 e2 e3 c' hc'
        rcases List.mem_cons.1 hc' with rfl | hc'
        · rintro rfl
          rw [create_taken hk hg e1 e2 e3] at hc
          cases hc
        · exact g2 D' i' n (by rw [h2.top]; exact h2.entry _ _ _ e1) (by rw [h2.link _ (hg.entryLt _ _ _ e1).2]; exact e2)
            (h2.entry _ _ _ e3) c' hc'
      · rw [List.map_cons, List.nodup_cons]
        refine ⟨fun hm => ?_, g3⟩
        obtain ⟨c', hc', he⟩ := List.mem_map.1 hm
        exact g2 D i (dirName c) (by rw [h2.top]; exact h3) h4 h6 c' hc' he
      · intro c' hc' hrel S q hS hq q'
        have hSlt := opens_lt hg hg.top hS
        rcases List.mem_cons.1 hc' with rfl | hc'
        · have ho := (c96_opens hk hg hnc hS hsub hrel hq hc q).2 rfl
          have ho' := opens_ext h1 g1 (by rw [← h2.top]; exact h1.top) ho
          exact ⟨fun h => opens_unique h ho', fun h => h ▸ ho'⟩
        · have := g4 c' hc' hrel S q (by rw [h2.top]; exact opens_ext hg h2 hg.top hS) (opens_ext hg h2 hSlt hq) q'
          rwa [h2.top] at this

/-- If `tup variant` succeeds, each of the files given is the tup.config of its own directory, and all is there that was there. -/
theorem c96_all (hk : Kernel chdir) (hg : k.Good) {cs : List Str} (hsub : sub.head? ≠ some '/')
    (hn : ∀ c ∈ cs, ∀ i, k.fs.entry k.top (dirName c) = some i → k.fs.link i = none) (h : (variants chdir sub cs k).2 = true) :
    Ext k (variants chdir sub cs k).1 ∧ (cs.map dirName).Nodup ∧
    ∀ c ∈ cs, c.head? ≠ some '/' → ∀ S q, Opens k.fs k.top sub S → Opens k.fs S c q →
      ∀ q', Opens (variants chdir sub cs k).1.fs k.top (dirName c ++ "/tup.config".toList) q' ↔ q' = q := by
  obtain ⟨h1, -, h3, h4⟩ := variants_ok hk hsub hg hn h
  exact ⟨h1, h3, h4⟩

/-- A name that is not there yet can be given, if nothing is too long. -/
theorem c96_succeeds (hk : Kernel chdir) (hg : k.Good) (hlen : (dirName config).length ≤ 255) (hlink : (linkText sub config).length < 4096)
    (he : k.fs.entry k.top (dirName config) = none) : (createVariant chdir sub config k).2 = true := by
  have hm : makeDir chdir k (dirName config) = (k.mkdir (dirName config), true) := by
    unfold makeDir
    rw [if_neg (by omega), he]
  have hnext : k.fs.entry k.next "tup.config".toList = none := by
    cases h : k.fs.entry k.next "tup.config".toList with
    | none => rfl
    | some i => have := (hg.entryLt _ _ _ h).1; omega
  have htop := hg.top
  have hlk : (k.mkdir (dirName config)).fs.link k.next = none := by
    show k.fs.link k.next = none
    cases hl : k.fs.link k.next with
    | none => rfl
    | some t => have := (hg.linkLt _ _ hl).1; omega
  have hc : chdir (k.mkdir (dirName config)) (dirName config) = some k.next :=
    (hk _ _ _).2 ⟨(opens_name (dirName_name hlen) (i := k.next) (if_pos ⟨rfl, rfl⟩) hlk).2 rfl, if_pos rfl⟩
  have he2 : (k.mkdir (dirName config)).fs.entry k.next "tup.config".toList = none :=
    (if_neg fun h => by have := h.1; omega).trans hnext
  unfold createVariant
  dsimp only
  rw [hm]
  dsimp only
  have h10 : ("/tup.config".toList : Str).length = 11 := by decide +kernel
  rw [if_neg (by simp), if_neg (by omega), if_neg (by rw [List.length_append, h10]; omega), hc]
  dsimp only
  rw [he2]
  rfl

/-- A directory that is there is taken only if it has no files but hidden ones; otherwise nothing is changed. -/
theorem c96_refused (hk : Kernel chdir) (hg : k.Good) {D i : Nat} {m : Str} (hlen : (dirName config).length ≤ 255)
    (he : k.fs.entry k.top (dirName config) = some D) (hl : k.fs.link D = none) (hm : k.fs.entry D m = some i)
    (hdot : m.head? ≠ some '.') : createVariant chdir sub config k = (k, false) := by
  have hmd : makeDir chdir k (dirName config) = (k, false) := by
    unfold makeDir
    rw [if_neg (by omega), he]
    dsimp only
    cases hc : chdir k (dirName config) with
    | none => rfl
    | some D' =>
      have := (opens_name (dirName_name hlen) he hl).1 ((hk _ _ _).1 hc).1
      subst this
      dsimp only
      have hmem := (hg.names D' m).2 (by rw [hm]; rfl)
      have : dirEmpty (k.names D') = false := by
        cases h : dirEmpty (k.names D') with
        | false => rfl
        | true => exact absurd (of_decide_eq_true (List.all_eq_true.1 h m hmem)) hdot
      rw [this]
  unfold createVariant
  dsimp only
  rw [hmd]
  rfl

/-! ### Cases

The root 0 has the top 1; in it are the file `a.config`, the directory `sub` with `b.config`, and the directory `e` with the directory
`f`; `build-z` is a link to `e/f`. -/

def exTable : List ((Nat × Str) × Nat) :=
  [((0, "p".toList), 1), ((1, "a.config".toList), 2), ((1, "sub".toList), 3), ((3, "b.config".toList), 4), ((1, "e".toList), 5), ((5, "f".toList), 6),
    ((1, "build-z".toList), 7), ((1, "z.config".toList), 8)]

def exK : Disk where
  fs := { root := 0, parent := fun i => if i = 3 ∨ i = 5 then 1 else if i = 6 then 5 else 0,
          entry := fun d n => exTable.lookup (d, n), link := fun i => if i = 7 then some "e/f".toList else none }
  isDir := fun i => i = 0 ∨ i = 1 ∨ i = 3 ∨ i = 5 ∨ i = 6
  names := fun d => (exTable.filter fun x => x.1.1 = d).map fun x => x.1.2
  top := 1
  next := 9

theorem lookup_mem {d : Nat} {n : Str} {i : Nat} {t : List ((Nat × Str) × Nat)} (h : t.lookup (d, n) = some i) : ((d, n), i) ∈ t := by
  induction t with
  | nil => cases h
  | cons x t ih =>
    obtain ⟨a, b⟩ := x
    rw [List.lookup_cons] at h
    split at h
    · next hx => cases h; rw [beq_iff_eq.1 hx]; exact List.mem_cons_self
    · exact List.mem_cons_of_mem _ (ih h)

theorem lookup_some {d : Nat} {n : Str} {t : List ((Nat × Str) × Nat)} : (t.lookup (d, n)).isSome = true ↔ ∃ i, ((d, n), i) ∈ t := by
  constructor
  · intro h
    obtain ⟨i, hi⟩ := Option.isSome_iff_exists.1 h
    exact ⟨i, lookup_mem hi⟩
  · rintro ⟨i, h⟩
    induction t with
    | nil => cases h
    | cons x t ih =>
      obtain ⟨a, b⟩ := x
      rw [List.lookup_cons]
      rcases List.mem_cons.1 h with h | h
      · cases h
        simp
      · split
        · rfl
        · exact ih h

theorem exGood : exK.Good := by
  have ht : ∀ x ∈ exTable, x.1.1 < 9 ∧ x.2 < 9 ∧ (exK.isDir x.2 = true → exK.fs.parent x.2 = x.1.1) := by decide +kernel
  refine ⟨by decide +kernel, by decide +kernel, by decide +kernel, ?_, ?_, ?_, ?_, ?_, ?_⟩
  · show ∀ i, i < 9 → exK.fs.parent i < 9
    decide +kernel
  · exact fun d n i h hd => (ht _ (lookup_mem h)).2.2 hd
  · exact fun d n i h => ⟨(ht _ (lookup_mem h)).1, (ht _ (lookup_mem h)).2.1⟩
  · intro i t h
    change (if i = 7 then some "e/f".toList else none) = some t at h
    split at h
    · next hi => rw [hi]; decide +kernel
    · cases h
  · intro i h
    have : i = 0 ∨ i = 1 ∨ i = 3 ∨ i = 5 ∨ i = 6 := by simpa [exK] using h
    show i < 9
    omega
  · intro d n
    show n ∈ (exTable.filter fun x => x.1.1 = d).map (fun x => x.1.2) ↔ (exTable.lookup (d, n)).isSome = true
    rw [lookup_some]
    constructor
    · intro h
      obtain ⟨⟨⟨d', n'⟩, i⟩, h1, h2⟩ := List.mem_map.1 h
      obtain ⟨h3, h4⟩ := List.mem_filter.1 h1
      have h4 : d' = d := of_decide_eq_true h4
      have h2 : n' = n := h2
      rw [h4, h2] at h3
      exact ⟨i, h3⟩
    · rintro ⟨i, h⟩
      exact List.mem_map.2 ⟨_, List.mem_filter.2 ⟨h, by simp⟩, rfl⟩

theorem nm (s : Str) (h : s ≠ [] ∧ '/' ∉ s ∧ s ≠ ".".toList ∧ s ≠ "..".toList) : Name s := h

theorem exSub : Opens exK.fs exK.top "sub".toList 3 :=
  (opens_name (nm _ (by decide +kernel)) (i := 3) (by decide +kernel) (by decide +kernel)).2 rfl

theorem exB : Opens exK.fs 3 "b.config".toList 4 :=
  (opens_name (nm _ (by decide +kernel)) (i := 4) (by decide +kernel) (by decide +kernel)).2 rfl

example : dirName "../configs/b.x.config".toList = "build-b".toList ∧ linkText "sub".toList "b.config".toList = "../sub/b.config".toList ∧
    linkText [] "/etc/b.config".toList = "..//etc/b.config".toList := by decide +kernel

/-- In `sub`, `tup variant b.config` makes `build-b` with `b.config` as its tup.config. -/
theorem c96_sample (hk : Kernel chdir) : (createVariant chdir "sub".toList "b.config".toList exK).2 = true ∧
    ∀ q, Opens (createVariant chdir "sub".toList "b.config".toList exK).1.fs 1 "build-b/tup.config".toList q ↔ q = 4 := by
  have hnone : exK.fs.entry exK.top (dirName "b.config".toList) = none := by decide +kernel
  have h := c96_succeeds (sub := "sub".toList) (config := "b.config".toList) hk exGood (by decide +kernel) (by decide +kernel) hnone
  refine ⟨h, fun q => ?_⟩
  have := c96_opens hk exGood (fun i hi => by rw [hnone] at hi; cases hi) exSub (by decide +kernel) (by decide +kernel) exB h q
  rwa [show dirName "b.config".toList ++ "/tup.config".toList = "build-b/tup.config".toList from by decide +kernel] at this

/-- A second file with the same stem is refused. -/
theorem c96_same (hk : Kernel chdir) (hg : k.Good) {a b : Str} (hsub : sub.head? ≠ some '/') (hab : dirName a = dirName b)
    (hn : ∀ i, k.fs.entry k.top (dirName a) = some i → k.fs.link i = none) : (variants chdir sub [a, b] k).2 = false := by
  cases h : (variants chdir sub [a, b] k).2 with
  | false => rfl
  | true =>
    have := (c96_all hk hg hsub (cs := [a, b]) (by
      intro c hc
      rcases List.mem_cons.1 hc with rfl | hc
      · exact hn
      · rw [List.mem_singleton.1 hc, ← hab]; exact hn) h).2.1
    simp [hab] at this

/-- If the name is a link to an empty directory elsewhere, `tup variant` says that the variant was added, but its tup.config does not
exist. -/
theorem c96_elsewhere (hk : Kernel chdir) : (createVariant chdir [] "z.config".toList exK).2 = true ∧
    Opens exK.fs 1 "z.config".toList 8 ∧
    ¬ ∃ q, Opens (createVariant chdir [] "z.config".toList exK).1.fs 1 "build-z/tup.config".toList q := by
  have hz : Name "build-z".toList := nm _ (by decide +kernel)
  have hef : Opens exK.fs 1 "e/f".toList 6 := by
    refine ⟨["e".toList, "f".toList], ?_, ?_⟩
    · have := Comps.cons (w := []) (e := "e".toList) (t := "/f".toList) (l := ["f".toList]) (by simp) (by decide) (by decide) (by decide)
        (by
          have := Comps.cons (w := "/".toList) (e := "f".toList) (t := []) (l := []) (by decide) (by decide) (by decide) (by simp) (.nil (by simp))
          simpa using this)
      exact this
    · exact .down (i := 5) (nm _ (by decide)) (by decide +kernel) (by decide +kernel)
        (.down (i := 6) (nm _ (by decide)) (by decide +kernel) (by decide +kernel) (.here _))
  have hch : chdir exK "build-z".toList = some 6 :=
    (hk _ _ _).2 ⟨(opens_link (i := 7) (t := "e/f".toList) hz (by decide +kernel) (by decide +kernel) (by decide +kernel)).2 hef, by decide +kernel⟩
  have hdn : dirName "z.config".toList = "build-z".toList := by decide +kernel
  have hmk : makeDir chdir exK "build-z".toList = (exK, true) := by
    unfold makeDir
    rw [if_neg (by decide +kernel), show exK.fs.entry exK.top "build-z".toList = some 7 from by decide +kernel]
    dsimp only
    rw [hch]
    dsimp only
    rw [show dirEmpty (exK.names 6) = true from by decide +kernel]
  have hlt : linkText [] "z.config".toList = "../z.config".toList := by decide +kernel
  have hcr : createVariant chdir [] "z.config".toList exK = (exK.symlink 6 "tup.config".toList "../z.config".toList, true) := by
    unfold createVariant
    dsimp only
    rw [hdn, hmk, hlt]
    dsimp only
    rw [if_neg (by decide), if_neg (by decide +kernel), if_neg (by decide +kernel), hch]
    dsimp only
    rw [show exK.fs.entry 6 "tup.config".toList = none from by decide +kernel]
    rfl
  rw [hcr]
  refine ⟨rfl, (opens_name (nm _ (by decide +kernel)) (i := 8) (by decide +kernel) (by decide +kernel)).2 rfl, ?_⟩
  rintro ⟨q, hq⟩
  have hx : Ext exK (exK.symlink 6 "tup.config".toList "../z.config".toList) := symlink_ext (by decide +kernel)
  have hopen6 : Opens (exK.symlink 6 "tup.config".toList "../z.config".toList).fs 1 "build-z/".toList 6 := by
    have h1 : Walk exK.fs 1 ["build-z".toList] 6 := by
      obtain ⟨l, hc, hw⟩ := hef
      exact .link (i := 7) (t := "e/f".toList) hz (by decide +kernel) (by decide +kernel) (by decide +kernel) hc hw (.here _)
    have h2 : Comps "build-z/".toList ["build-z".toList] := comps_slash (comps_name hz)
    exact opens_ext exGood hx (by decide +kernel) ⟨_, h2, h1⟩
  rw [show ("build-z/tup.config".toList : Str) = "build-z/".toList ++ "tup.config".toList from by decide +kernel,
    opens_join hopen6 (.inr (by decide +kernel)) (name_head tc_name),
    opens_link (i := 9) (t := "../z.config".toList) tc_name (by decide +kernel) (by decide +kernel) (by decide +kernel)] at hq
  obtain ⟨l, hc, hw⟩ := hq
  have hcz : Comps "../z.config".toList ["..".toList, "z.config".toList] := by
    have := linkText_comps (sub := []) (.nil (by simp)) (comps_name (n := "z.config".toList) (nm _ (by decide +kernel)))
    rwa [hlt] at this
  rw [comps_unique hc hcz] at hw
  generalize hdd : ("..".toList : Str) = dd at hw
  cases hw with
  | dot => exact absurd hdd.symm dot_up
  | down hnn => rw [← hdd] at hnn; exact absurd hnn name_up
  | link hnn => rw [← hdd] at hnn; exact absurd hnn name_up
  | up hw =>
    have hp : (exK.symlink 6 "tup.config".toList "../z.config".toList).fs.parent
        ((exK.symlink 6 "tup.config".toList "../z.config".toList).fs.start 6 "../z.config".toList) = 5 := by decide +kernel
    rw [hp] at hw
    have hnone : (exK.symlink 6 "tup.config".toList "../z.config".toList).fs.entry 5 "z.config".toList = none := by decide +kernel
    generalize hzz : ("z.config".toList : Str) = zz at hw
    cases hw with
    | dot => exact absurd hzz (by decide +kernel)
    | up => exact absurd hzz (by decide +kernel)
    | down _ h2 => rw [← hzz, hnone] at h2; cases h2
    | link _ h2 => rw [← hzz, hnone] at h2; cases h2

end Tup.MkVariant
