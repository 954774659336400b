import Verif.LnCmd.Spec
import Verif.Relative.Props
import Verif.Printf.Props

/-! Lemmas for C90. -/

namespace Tup.LnCmd

open Tup (Str isSpace skipSpaces)
open Tup.Relative (Table relative Place Proper Exists)
open Tup.Pel (Comps Leads Name)

theorem word_split {f g : Str} (hf : ∀ c, c ∈ f → isSpace c = false) (hg : ∀ c, g.head? = some c → isSpace c = true) :
    (f ++ g).takeWhile (fun c => !isSpace c) = f ∧ (f ++ g).dropWhile (fun c => !isSpace c) = g := by
  have h1 : ∀ c, c ∈ f → (fun c => !isSpace c) c = true := fun c hc => by rw [show (fun c => !isSpace c) c = !isSpace c from rfl, hf c hc]; rfl
  rw [List.takeWhile_append_of_pos h1, List.dropWhile_append_of_pos h1]
  cases g with
  | nil => simp
  | cons c g =>
    have := hg c rfl
    rw [List.takeWhile_cons_of_neg (by rw [this]; decide), List.dropWhile_cons_of_neg (by rw [this]; decide)]
    simp

theorem words_eq {w f g o : Str} (hw : ∀ c, c ∈ w → isSpace c = true) (hf : Word f) (hg : Gap g) (ho : ∀ c, o.head? = some c → isSpace c = false) :
    words (w ++ f ++ g ++ o) = if f.length ≥ 4095 then .tooLong else .ok f o := by
  have hg1 : ∀ c, (g ++ o).head? = some c → isSpace c = true := by
    intro c hc
    cases g with
    | nil => exact absurd rfl hg.1
    | cons d g =>
      injection hc with hc
      rw [← hc]
      exact hg.2 d List.mem_cons_self
  have hne : g ++ o ≠ [] := fun h => hg.1 (List.append_eq_nil_iff.mp h).1
  have h1 : skipSpaces (w ++ f ++ g ++ o) = f ++ (g ++ o) := by
    rw [List.append_assoc, List.append_assoc, skipSpaces_append hw]
    apply skipSpaces_of
    intro c hc
    have := hf.1
    cases f with
    | nil => exact absurd rfl this
    | cons d f =>
      injection hc with hc
      rw [← hc]
      exact hf.2 d List.mem_cons_self
  obtain ⟨h2, h3⟩ := word_split hf.2 hg1
  unfold words
  dsimp only
  rw [h1, h2, h3, if_neg hne, skipSpaces_append hg.2, skipSpaces_of ho]

theorem drop_nil : ∀ {s : Str}, s.dropWhile (fun c => !isSpace c) = [] ↔ ∀ c, c ∈ s → isSpace c = false
  | [] => ⟨fun _ c hc => (by cases hc), fun _ => rfl⟩
  | c :: s => by
    by_cases h : isSpace c = true
    · rw [List.dropWhile_cons_of_neg (by rw [h]; decide)]
      exact ⟨fun e => (by cases e), fun e => absurd (e c List.mem_cons_self) (by rw [h]; decide)⟩
    · have h : isSpace c = false := by simpa using h
      rw [List.dropWhile_cons_of_pos (by rw [h]; decide), drop_nil]
      exact ⟨fun e d hd => (List.mem_cons.mp hd).elim (fun e => e ▸ h) (e d), fun e d hd => e d (List.mem_cons_of_mem _ hd)⟩

theorem words_ub {s : Str} : words s = .ub ↔ OneWord s := by
  constructor
  · intro h
    unfold words at h
    dsimp only at h
    split at h
    · rename_i hr
      obtain ⟨w, hw, hs⟩ := skipSpaces_split s
      refine ⟨w, skipSpaces s, hs, hw, fun c hc => ?_⟩
      exact drop_nil.mp hr c hc
    · split at h <;> cases h
  · rintro ⟨w, u, rfl, hw, hu⟩
    have h1 : skipSpaces (w ++ u) = u := by
      rw [skipSpaces_append hw]
      apply skipSpaces_of
      intro c hc
      exact hu c (List.mem_of_mem_head? hc)
    have h3 : u.dropWhile (fun c => !isSpace c) = [] := drop_nil.mpr hu
    unfold words
    dsimp only
    rw [h1, h3, if_pos rfl]

theorem comps_slash {t : Str} {l : List Str} (h : Comps t l) : Comps ('/' :: t) l := by
  cases h with
  | nil hw => exact .nil fun c hc => (List.mem_cons.mp hc).elim id (hw c)
  | @cons w e t l hw he hs ht hr =>
    have := Comps.cons (w := '/' :: w) (fun c hc => (List.mem_cons.mp hc).elim id (hw c)) he hs ht hr
    exact this

theorem comps_slashes : ∀ {w t : Str} {l : List Str}, (∀ c, c ∈ w → c = '/') → Comps t l → Comps (w ++ t) l
  | [], _, _, _, h => h
  | c :: w, t, l, hw, h => by
    have := hw c List.mem_cons_self
    subst this
    exact comps_slash (comps_slashes (fun c hc => hw c (List.mem_cons_of_mem _ hc)) h)

/-- The components of two paths with a slash between. -/
theorem comps_join {a b : Str} {l m : List Str} (ha : Comps a l) (hb : Comps b m) : Comps (a ++ ('/' :: b)) (l ++ m) := by
  induction ha with
  | nil hw => exact comps_slashes hw (comps_slash hb)
  | @cons w e t l hw he hs ht _ ih =>
    have : w ++ e ++ t ++ '/' :: b = w ++ e ++ (t ++ '/' :: b) := by simp
    rw [this]
    refine Comps.cons hw he hs ?_ ih
    intro c hc
    cases t with
    | nil => injection hc with hc; exact hc.symm
    | cons d t => exact ht c hc

theorem relative_head {T : Table} {fuel s e : Nat} {t : Str} {p q : List Str} (hT : Proper T) (hp : Place T s p) (hq : Place T e q)
    (h : relative T fuel s e '/' = some t) : ∃ c, t.head? = some c ∧ c ≠ '/' := by
  obtain ⟨k, a, b, _, _, _, hn, ht⟩ := Relative.relative_comps hT hp hq h
  by_cases hab : a = [] ∧ b = []
  · rw [if_pos hab] at ht
    exact ⟨'.', by rw [ht]; rfl, by decide⟩
  · rw [if_neg hab] at ht
    have hg : ∀ e ∈ List.replicate a.length "..".toList ++ b, Pel.Good e := Pel.normal_good ⟨_, _, rfl, hn⟩
    generalize hx : List.replicate a.length "..".toList ++ b = x at hg ht
    cases x with
    | nil =>
      obtain ⟨h1, h2⟩ := List.append_eq_nil_iff.1 hx
      exact absurd ⟨by simpa using h1, h2⟩ hab
    | cons e l =>
      obtain ⟨h3, h4⟩ := hg e List.mem_cons_self
      cases e with
      | nil => exact absurd rfl h3
      | cons c e =>
        refine ⟨c, ?_, fun hc => h4 (by rw [hc]; exact List.mem_cons_self)⟩
        rw [ht]
        cases l with
        | nil => simp [Pel.text, List.intercalate]
        | cons f l => simp [Pel.text, List.intercalate, List.intersperse]

end Tup.LnCmd
