import Verif.Shower.File
import Verif.Shower.Props
import Verif.Bytes.Props
import Mathlib.Data.List.Induction
/-
C83 (a shower made from a file is the requested one of the file).
-/
namespace Verif.Shower
open Verif Verif.Bytes

variable {K : Type}

/-! ### Specification -/

/-- A shower in the file: its kind, and the bytes of its numbers. -/
structure Shower where
  kind : Int
  energy : List Nat
  grammage : List (List Nat)
  charge : List (List Nat)
deriving DecidableEq

/-- What the file format can hold: as many charges as grammages, at least one, numbers of eight bytes. -/
structure Shower.Ok (s : Shower) : Prop where
  kind : -2 ^ 31 ≤ s.kind ∧ s.kind < 2 ^ 31
  energy : s.energy.length = 8
  some : 0 < s.grammage.length
  few : s.grammage.length < 2 ^ 31
  same : s.charge.length = s.grammage.length
  grammage : ∀ w ∈ s.grammage, w.length = 8
  charge : ∀ w ∈ s.charge, w.length = 8

/-- The bytes of a shower in the file (`write_shower` in convert_shower_profile.py 20-25): the number of entries, the kind, the energy, the grammages and the charges. -/
def Shower.bytes (s : Shower) : List Nat :=
  leBytes 4 s.grammage.length ++ (leBytes 4 (s.kind % 2 ^ 32).toNat ++ (s.energy ++ (s.grammage.flatten ++ s.charge.flatten)))

def fileOf (ss : List Shower) : List Nat := ss.flatMap Shower.bytes

/-- The profile that a shower in the file stands for. -/
def Shower.profile (dec : List Nat → K) (scale : K → K) (s : Shower) : Profile K := ⟨s.grammage.map fun w => scale (dec w), s.charge.map dec⟩

/-! ### Reading -/

theorem elements_flatten (size : Nat) : ∀ (ws : List (List Nat)) (r : List Nat), (∀ w ∈ ws, w.length = size) → elements size ws.length (ws.flatten ++ r) = ws
  | [], _, _ => rfl
  | w :: ws, r, h => by
    have hw : w.length = size := h w (by simp)
    show (if size ≤ ((w :: ws).flatten ++ r).length then _ else _) = _
    rw [if_pos (by simp; omega)]
    have e : (w :: ws).flatten ++ r = w ++ (ws.flatten ++ r) := by simp
    rw [e, List.take_left' hw, List.drop_left' hw, elements_flatten size ws r (fun w' hw' => h w' (by simp [hw']))]

theorem flatten_length (size : Nat) : ∀ (ws : List (List Nat)), (∀ w ∈ ws, w.length = size) → ws.flatten.length = size * ws.length
  | [], _ => rfl
  | w :: ws, h => by
    rw [List.flatten_cons, List.length_append, flatten_length size ws (fun w' hw' => h w' (by simp [hw'])), h w (by simp), List.length_cons, Nat.mul_succ]
    omega

theorem fread_flatten (size n : Nat) (ws : List (List Nat)) (r : List Nat) (h : ∀ w ∈ ws, w.length = size) (hn : ws.length = n) : fread size n (ws.flatten ++ r) = (ws, r) := by
  subst hn
  unfold fread
  rw [elements_flatten size ws r h, List.drop_left' (flatten_length size ws h)]

theorem fread_one (size : Nat) (w r : List Nat) (h : w.length = size) : fread size 1 (w ++ r) = ([w], r) := by
  have := fread_flatten size 1 [w] r (by simpa using h) rfl
  simpa using this

theorem toInt_small (n : Nat) (h : n < 2 ^ 31) : toInt (leBytes 4 n) = n := by
  unfold toInt
  rw [leVal_leBytes, Nat.mod_eq_of_lt (by omega), if_pos h]

theorem toInt_kind (z : Int) (h : -2 ^ 31 ≤ z ∧ z < 2 ^ 31) : toInt (leBytes 4 (z % 2 ^ 32).toNat) = z := by
  unfold toInt
  rw [leVal_leBytes, Nat.mod_eq_of_lt (by omega)]
  split <;> omega

theorem filled_all (zero : K) (dec : List Nat → K) (n : Nat) (es : List (List Nat)) (h : es.length = n) : filled zero dec n es = es.map dec := by
  unfold filled
  rw [h, Nat.sub_self]
  simp

theorem readShower_ok (zero : K) (dec : List Nat → K) (scale : K → K) (junk : Int × K) (s : Shower) (hs : s.Ok) (r : List Nat) :
    readShower zero dec scale junk (s.bytes ++ r) = .ok (false, ⟨s.kind, dec s.energy, s.profile dec scale⟩, r) := by
  have e : s.bytes ++ r = leBytes 4 s.grammage.length ++ (leBytes 4 (s.kind % 2 ^ 32).toNat ++ (s.energy ++ (s.grammage.flatten ++ (s.charge.flatten ++ r)))) := by
    simp [Shower.bytes]
  unfold readShower
  rw [e, fread_one 4 _ _ (length_leBytes 4 _)]
  dsimp only
  rw [fread_one 4 _ _ (length_leBytes 4 _)]
  dsimp only
  rw [fread_one 8 _ _ hs.energy]
  dsimp only
  have h0 := hs.some
  rw [toInt_small _ hs.few, if_neg (by omega), if_neg (by omega), toInt_kind _ hs.kind, Int.toNat_natCast, fread_flatten 8 _ _ _ hs.grammage rfl]
  dsimp only
  rw [fread_flatten 8 _ _ _ hs.charge hs.same]
  dsimp only
  rw [filled_all zero dec _ _ rfl, filled_all zero dec _ _ hs.same]
  simp [Shower.profile, Function.comp_def]

theorem readShower_end (zero : K) (dec : List Nat → K) (scale : K → K) (junk : Int × K) :
    readShower zero dec scale junk [] = .ok (true, ⟨junk.1, junk.2, ⟨[], []⟩⟩, []) := rfl

variable [DecidableEq K]

/-- What is stored for the record of a shower. -/
def Shower.record (dec : List Nat → K) (scale : K → K) (s : Shower) : Record K := ⟨s.kind, dec s.energy, s.profile dec scale⟩

theorem loadLoop_ok (zero : K) (dec : List Nat → K) (scale : K → K) (junk : Nat → Int × K) : ∀ (ss : List Shower) (fuel k : Nat) (S : Store K), (∀ s ∈ ss, s.Ok) → ss.length < fuel →
    loadLoop zero dec scale junk fuel k (fileOf ss) S = .ok (((ss.map (Shower.record dec scale)) ++ [(⟨(junk (k + ss.length)).1, (junk (k + ss.length)).2, ⟨[], []⟩⟩ : Record K)]).foldl Store.add S)
  | [], fuel + 1, k, S, _, _ => by
    show (readShower zero dec scale (junk k) []).bind _ = _
    rw [readShower_end, Res.ok_bind]
    rfl
  | s :: ss, fuel + 1, k, S, h, hf => by
    have e : fileOf (s :: ss) = s.bytes ++ fileOf ss := by simp [fileOf]
    show (readShower zero dec scale (junk k) (fileOf (s :: ss))).bind _ = _
    rw [e, readShower_ok zero dec scale _ s (h s (by simp)), Res.ok_bind]
    dsimp only
    rw [if_neg (by decide), loadLoop_ok zero dec scale junk ss fuel (k + 1) _ (fun s' hs' => h s' (by simp [hs'])) (by simp at hf; omega)]
    simp only [List.length_cons, List.map_cons, List.cons_append, List.foldl_cons, Shower.record]
    rw [show k + 1 + ss.length = k + (ss.length + 1) by omega]

omit [DecidableEq K] in
theorem readShower_shorter (zero : K) (dec : List Nat → K) (scale : K → K) (junk : Int × K) (f : List Nat) :
    readShower zero dec scale junk f ≠ .diverge ∧ ∀ x, readShower zero dec scale junk f = .ok x → x.1 = false → x.2.2.length < f.length := by
  by_cases h4 : 4 ≤ f.length
  · have e : fread 4 1 f = ([f.take 4], f.drop 4) := by
      have := fread_one 4 (f.take 4) (f.drop 4) (by simp; omega)
      rwa [List.take_append_drop] at this
    unfold readShower
    rw [e]
    dsimp only
    split
    · exact ⟨by simp, fun x hx => by cases hx⟩
    · split
      · exact ⟨by simp, fun x hx => by cases hx⟩
      · refine ⟨by simp, fun x hx _ => ?_⟩
        rw [← Res.ok.inj hx]
        have h1 : ∀ g : List Nat, (match fread 4 1 g with
            | (h :: _, r) => (toInt h, r)
            | ([], r) => (junk.1, r)).2.length ≤ g.length := by
          intro g
          unfold fread
          cases elements 4 1 g <;> simp
        have h2 : ∀ g : List Nat, (match fread 8 1 g with
            | (h :: _, r) => (dec h, r)
            | ([], r) => (junk.2, r)).2.length ≤ g.length := by
          intro g
          unfold fread
          cases elements 8 1 g <;> simp
        have h3 : ∀ n (g : List Nat), (fread 8 n g).2.length ≤ g.length := fun n g => by simp [fread]
        refine lt_of_le_of_lt (h3 _ _) (lt_of_le_of_lt (h3 _ _) (lt_of_le_of_lt (h2 _) (lt_of_le_of_lt (h1 _) ?_)))
        simp
        omega
  · have e : elements 4 1 f = [] := by
      show (if 4 ≤ f.length then _ else _) = _
      rw [if_neg h4]
    unfold readShower fread
    rw [e]
    exact ⟨by simp, fun x hx h => by rw [← Res.ok.inj hx] at h; cases h⟩

/-- Whatever the file contains, the constructor comes to an end. -/
theorem C83_load_ends (zero : K) (dec : List Nat → K) (scale : K → K) (junk : Nat → Int × K) (file : Option (List Nat)) : load zero dec scale junk file ≠ .diverge := by
  have h : ∀ fuel k (f : List Nat) (S : Store K), f.length < fuel → loadLoop zero dec scale junk fuel k f S ≠ .diverge := by
    intro fuel
    induction fuel with
    | zero => intro k f S h; omega
    | succ fuel ih =>
      intro k f S hf
      obtain ⟨h1, h2⟩ := readShower_shorter zero dec scale (junk k) f
      rw [loadLoop]
      match hr : readShower zero dec scale (junk k) f with
      | .ok (true, r, rest) => rw [Res.ok_bind]; simp
      | .ok (false, r, rest) =>
        rw [Res.ok_bind]
        have h3 := h2 _ hr rfl
        exact ih (k + 1) rest _ (by simp only at h3; omega)
      | .abort => simp [Res.bind]
      | .throw => simp [Res.bind]
      | .ub => simp [Res.bind]
      | .diverge => exact absurd hr h1
  cases file with
  | none => simp [load]
  | some f => exact h _ _ _ _ (by omega)

/-! ### What is stored -/

/-- The different elements of a list, in the order of their first occurrence. -/
def firsts (l : List K) : List K := l.foldl (fun es e => if e ∈ es then es else es ++ [e]) []

theorem firsts_append (l : List K) (e : K) : firsts (l ++ [e]) = if e ∈ firsts l then firsts l else firsts l ++ [e] := by
  unfold firsts
  rw [List.foldl_append]
  rfl

theorem mem_firsts (l : List K) (e : K) : e ∈ firsts l ↔ e ∈ l := by
  induction l using List.reverseRecOn with
  | nil => simp [firsts]
  | append_singleton l a ih =>
    rw [firsts_append]
    by_cases ha : a ∈ firsts l
    · rw [if_pos ha]
      by_cases he : e = a
      · subst he; simp [ha]
      · simp [ih, he]
    · rw [if_neg ha]
      simp [ih]

theorem firsts_prefix (l m : List K) : ∃ t, firsts (l ++ m) = firsts l ++ t := by
  induction m using List.reverseRecOn with
  | nil => exact ⟨[], by simp⟩
  | append_singleton m a ih =>
    obtain ⟨t, ht⟩ := ih
    rw [← List.append_assoc, firsts_append, ht]
    split
    · exact ⟨t, rfl⟩
    · exact ⟨t ++ [a], by simp⟩

def Store.none : Store K := ⟨fun _ _ => [], fun _ => []⟩

theorem stored (rs : List (Record K)) :
    (∀ h e, (rs.foldl Store.add Store.none).profiles h e = (rs.filter fun r => decide (r.hadronic = h ∧ r.energy = e)).map Record.profile) ∧
    ∀ h, (rs.foldl Store.add Store.none).energies h = firsts ((rs.filter fun r => decide (r.hadronic = h)).map Record.energy) := by
  induction rs using List.reverseRecOn with
  | nil => exact ⟨fun _ _ => rfl, fun _ => rfl⟩
  | append_singleton rs r ih =>
    rw [List.foldl_append]
    refine ⟨fun h e => ?_, fun h => ?_⟩
    · show (if h = r.hadronic ∧ e = r.energy then _ else _) = _
      rw [ih.1]
      by_cases hr : h = r.hadronic ∧ e = r.energy
      · rw [if_pos hr]
        simp [hr.1, hr.2]
      · rw [if_neg hr]
        have : ¬(r.hadronic = h ∧ r.energy = e) := fun h' => hr ⟨h'.1.symm, h'.2.symm⟩
        simp [this]
    · show (if h = r.hadronic ∧ (rs.foldl Store.add Store.none).profiles r.hadronic r.energy = [] then _ else _) = _
      rw [ih.1, ih.2]
      by_cases hr : r.hadronic = h
      · rw [List.filter_append]
        have e1 : List.filter (fun r => decide (r.hadronic = h)) [r] = [r] := by simp [hr]
        rw [e1, List.map_append]
        show _ = firsts (_ ++ [r.energy])
        rw [firsts_append]
        by_cases hm : r.energy ∈ firsts ((rs.filter fun r => decide (r.hadronic = h)).map Record.energy)
        · rw [if_pos hm, if_neg]
          rintro ⟨_, h2⟩
          rw [mem_firsts] at hm
          obtain ⟨r', h3, h4⟩ := List.mem_map.1 hm
          obtain ⟨h5, h6⟩ := List.mem_filter.1 h3
          have h6 := of_decide_eq_true h6
          rw [List.map_eq_nil_iff, List.filter_eq_nil_iff] at h2
          exact h2 r' h5 (decide_eq_true ⟨h6.trans hr.symm, h4⟩)
        · rw [if_neg hm, if_pos]
          refine ⟨hr.symm, ?_⟩
          rw [List.map_eq_nil_iff, List.filter_eq_nil_iff]
          intro r' h5 h6
          have h6 := of_decide_eq_true h6
          apply hm
          rw [mem_firsts]
          exact List.mem_map.2 ⟨r', List.mem_filter.2 ⟨h5, decide_eq_true (h6.1.trans hr)⟩, h6.2⟩
      · rw [if_neg (fun h' => hr h'.1.symm)]
        simp [hr]

/-! ### The nearest energy -/

section Exact
variable {K : Type} [Field K] [LinearOrder K] [IsStrictOrderedRing K]

theorem closest_first (en : K) : ∀ (es : List K) (best : K), ∃ pre post, best :: es = pre ++ closest (exact' K) abs en es best |en - best| :: post ∧
    (∀ x ∈ pre, abs (en - closest (exact' K) abs en es best |en - best|) < |en - x|) ∧ ∀ x ∈ post, abs (en - closest (exact' K) abs en es best |en - best|) ≤ |en - x|
  | [], best => ⟨[], [], rfl, by simp, by simp⟩
  | e :: es, best => by
    by_cases hl : |en - e| < |en - best|
    · have hc : closest (exact' K) abs en (e :: es) best |en - best| = closest (exact' K) abs en es e |en - e| := by
        show (if (exact' K).lt (abs (en - e)) |en - best| then closest (exact' K) abs en es e (abs (en - e)) else closest (exact' K) abs en es best |en - best|) = _
        rw [if_pos (by simpa [exact'] using hl)]
      rw [hc]
      obtain ⟨pre, post, h1, h2, h3⟩ := closest_first en es e
      refine ⟨best :: pre, post, by rw [List.cons_append, ← h1], fun x hx => ?_, h3⟩
      rcases List.mem_cons.1 hx with rfl | hx
      · exact lt_of_le_of_lt (closest_ok en es e _ rfl).2.1 hl
      · exact h2 x hx
    · have hc : closest (exact' K) abs en (e :: es) best |en - best| = closest (exact' K) abs en es best |en - best| := by
        show (if (exact' K).lt (abs (en - e)) |en - best| then closest (exact' K) abs en es e (abs (en - e)) else closest (exact' K) abs en es best |en - best|) = _
        rw [if_neg (by simpa [exact'] using hl)]
      rw [hc]
      obtain ⟨pre, post, h1, h2, h3⟩ := closest_first en es best
      have hle : abs (en - closest (exact' K) abs en es best |en - best|) ≤ |en - best| := (closest_ok en es best _ rfl).2.1
      cases pre with
      | nil =>
        rw [List.nil_append] at h1
        injection h1 with h4 h5
        refine ⟨[], e :: post, ?_, by simp, fun x hx => ?_⟩
        · rw [List.nil_append, ← h4, ← h5]
        · rcases List.mem_cons.1 hx with rfl | hx
          · exact le_trans hle (not_lt.1 hl)
          · exact h3 x hx
      | cons b pre =>
        rw [List.cons_append] at h1
        injection h1 with h4 h5
        subst h4
        refine ⟨best :: e :: pre, post, by rw [List.cons_append, List.cons_append, ← h5], fun x hx => ?_, h3⟩
        rcases List.mem_cons.1 hx with rfl | hx
        · exact h2 x (by simp)
        · rcases List.mem_cons.1 hx with rfl | hx
          · exact lt_of_lt_of_le (h2 best (by simp)) (not_lt.1 hl)
          · exact h2 x (List.mem_cons_of_mem _ hx)

theorem append_cons_left : ∀ (a b p q : List K) (c : K), c ∉ a → c ∉ b → a ++ c :: p = b ++ c :: q → a = b
  | [], [], _, _, _, _, _, _ => rfl
  | [], y :: b, _, _, c, _, h2, h => by
    injection h with h3 _
    exact absurd h3 (by intro h; apply h2; simp [h])
  | x :: a, [], _, _, c, h1, _, h => by
    injection h with h3 _
    exact absurd h3 (by intro h; apply h1; simp [h])
  | x :: a, y :: b, p, q, c, h1, h2, h => by
    injection h with h3 h4
    rw [h3, append_cons_left a b p q c (fun h' => h1 (by simp [h'])) (fun h' => h2 (by simp [h'])) h4]

/-- The first element of a list that is nearest to `en`. -/
def FirstNearest (en : K) (l : List K) (e : K) : Prop := ∃ pre post, l = pre ++ e :: post ∧ (∀ x ∈ pre, |en - e| < |en - x|) ∧ ∀ x ∈ post, |en - e| ≤ |en - x|

theorem closestEnergy_first [DecidableEq K] (en : K) (l : List K) (h : l ≠ []) : ∃ e, closestEnergy (exact' K) abs en (firsts l) = .ok e ∧ FirstNearest en l e := by
  have hne : firsts l ≠ [] := by
    obtain ⟨a, ha⟩ := List.exists_mem_of_ne_nil l h
    exact List.ne_nil_of_mem ((mem_firsts l a).2 ha)
  match hf : firsts l, hne with
  | b :: es, _ =>
    obtain ⟨pre, post, h1, h2, h3⟩ := closest_first en es b
    refine ⟨_, rfl, ?_⟩
    show FirstNearest en l (closest (exact' K) abs en es b |en - b|)
    generalize closest (exact' K) abs en es b |en - b| = c at h1 h2 h3
    have hc : c ∈ l := by rw [← mem_firsts, hf, h1]; simp
    obtain ⟨p, q, hl, hp⟩ := List.eq_append_cons_of_mem hc
    have hcp : c ∉ firsts p := by rw [mem_firsts]; exact hp
    obtain ⟨t, ht⟩ := firsts_prefix (p ++ [c]) q
    have e1 : firsts l = firsts p ++ c :: t := by
      rw [hl, show p ++ c :: q = p ++ [c] ++ q by simp, ht, firsts_append, if_neg hcp]
      simp
    have hcpre : c ∉ pre := fun h' => lt_irrefl _ (h2 c h')
    rw [hf, h1] at e1
    have h4 : pre = firsts p := append_cons_left pre (firsts p) post t c hcpre hcp e1
    have hall : ∀ x ∈ l, |en - c| ≤ |en - x| := by
      intro x hx
      rw [← mem_firsts, hf, h1] at hx
      rcases List.mem_append.1 hx with hx | hx
      · exact (h2 x hx).le
      · rcases List.mem_cons.1 hx with rfl | hx
        · exact le_refl _
        · exact h3 x hx
    refine ⟨p, q, hl, fun x hx => h2 x ?_, fun x hx => hall x (by rw [hl]; simp [hx])⟩
    rw [h4, mem_firsts]
    exact hx

/-- The showers of a kind. -/
def ofKind (ss : List Shower) (kind : Int) : List Shower := ss.filter fun s => decide (s.kind = kind)

/-- **C83.** For every file of showers, kind, energy and index: the constructor accepts the file, and the shower that is created is made from the profile of the `i`-th shower of the file (in
    its order) that has the requested kind and the nearest energy (the first of the file, among those that are equally near), scaled with the ratio of the energies.
    What is missing: this is only so if the record that is added at the end of the file, with whatever values are found in uninitialised memory (`junk`), happens to be of another kind or
    to repeat an energy of this kind; see `C51_stray_record`. -/
theorem C83_create_partial [DecidableEq K] (dec : List Nat → K) (scale : K → K) (junk : Nat → Int × K) (ss : List Shower) (hok : ∀ s ∈ ss, s.Ok) (kind : Int) (hne : ofKind ss kind ≠ [])
    (hj : (junk ss.length).1 = kind → ∃ s ∈ ofKind ss kind, dec s.energy = (junk ss.length).2) :
    ∃ S, load 0 dec scale junk (some (fileOf ss)) = .ok S ∧ ∀ en : K, ∃ e, FirstNearest en ((ofKind ss kind).map fun s => dec s.energy) e ∧
      ∀ (i : Nat) (s : Shower), ((ofKind ss kind).filter fun s => decide (dec s.energy = e))[i]? = some s → createFrom (exact' K) abs S en kind i = .ok (s.profile dec scale, en / e) := by
  have hlen : ∀ l : List Shower, (∀ s ∈ l, s.Ok) → l.length ≤ (fileOf l).length := by
    intro l
    induction l with
    | nil => intro _; simp
    | cons a l ih =>
      intro h
      have h1 := ih (fun s hs => h s (by simp [hs]))
      have h2 := (h a (by simp)).energy
      simp only [fileOf, List.flatMap_cons, List.length_append, Shower.bytes, List.length_cons] at h1 ⊢
      omega
  have hload := loadLoop_ok 0 dec scale junk ss ((fileOf ss).length + 1) 0 Store.none hok (by have := hlen ss hok; omega)
  rw [Nat.zero_add] at hload
  refine ⟨_, hload, fun en => ?_⟩
  obtain ⟨hp, he⟩ := stored (ss.map (Shower.record dec scale) ++ [(⟨(junk ss.length).1, (junk ss.length).2, ⟨[], []⟩⟩ : Record K)])
  have hmap : ((ss.map (Shower.record dec scale)).filter fun r => decide (r.hadronic = kind)).map Record.energy = (ofKind ss kind).map fun s => dec s.energy := by
    rw [List.filter_map, List.map_map]
    rfl
  have hen : firsts (((ss.map (Shower.record dec scale) ++ [(⟨(junk ss.length).1, (junk ss.length).2, ⟨[], []⟩⟩ : Record K)]).filter fun r => decide (r.hadronic = kind)).map Record.energy)
      = firsts ((ofKind ss kind).map fun s => dec s.energy) := by
    rw [List.filter_append, List.map_append, hmap]
    by_cases hk : (junk ss.length).1 = kind
    · obtain ⟨s, h1, h2⟩ := hj hk
      have e1 : List.map Record.energy (List.filter (fun r => decide (r.hadronic = kind)) [(⟨(junk ss.length).1, (junk ss.length).2, ⟨[], []⟩⟩ : Record K)]) = [(junk ss.length).2] := by
        simp [hk]
      rw [e1, firsts_append, if_pos]
      rw [mem_firsts]
      exact List.mem_map.2 ⟨s, h1, h2⟩
    · simp [hk]
  obtain ⟨e, h1, h2⟩ := closestEnergy_first en ((ofKind ss kind).map fun s => dec s.energy) (by simpa using hne)
  refine ⟨e, h2, fun i s hi => ?_⟩
  unfold createFrom createShower
  rw [he, hen, h1, Res.ok_bind, if_neg (by omega), Int.toNat_natCast, hp]
  have hpr : (((ss.map (Shower.record dec scale) ++ [(⟨(junk ss.length).1, (junk ss.length).2, ⟨[], []⟩⟩ : Record K)]).filter fun r => decide (r.hadronic = kind ∧ r.energy = e)).map
      Record.profile)[i]? = some (s.profile dec scale) := by
    rw [List.filter_append, List.map_append]
    have e2 : ((ss.map (Shower.record dec scale)).filter fun r => decide (r.hadronic = kind ∧ r.energy = e)).map Record.profile
        = ((ofKind ss kind).filter fun s => decide (dec s.energy = e)).map (Shower.profile dec scale) := by
      rw [List.filter_map, List.map_map]
      unfold ofKind
      rw [List.filter_filter]
      congr 1
      show List.filter _ ss = List.filter _ ss
      apply List.filter_congr
      intro x _
      rw [Bool.eq_iff_iff]
      constructor
      · intro h
        have h' := of_decide_eq_true h
        exact Bool.and_eq_true_iff.2 ⟨decide_eq_true h'.2, decide_eq_true h'.1⟩
      · intro h
        have h' := Bool.and_eq_true_iff.1 h
        exact decide_eq_true ⟨of_decide_eq_true h'.2, of_decide_eq_true h'.1⟩
    have hlt : i < ((ofKind ss kind).filter fun s => decide (dec s.energy = e)).length := (List.getElem?_eq_some_iff.1 hi).1
    rw [e2, List.getElem?_append_left (by simpa using hlt), List.getElem?_map, hi]
    rfl
  rw [hpr]
  rfl

end Exact

/-! ### Examples and negative results -/

namespace Ex83

/-- For the examples: the value of eight bytes. -/
def dec (bs : List Nat) : Rat := (leVal bs : Rat)

/-- A hadronic shower of energy 100 with two entries. -/
def a : Shower := ⟨1, leBytes 8 100, [leBytes 8 0, leBytes 8 3], [leBytes 8 1, leBytes 8 2]⟩
def b : Shower := ⟨1, leBytes 8 40, [leBytes 8 0, leBytes 8 5], [leBytes 8 7, leBytes 8 8]⟩
def c : Shower := ⟨0, leBytes 8 60, [leBytes 8 2], [leBytes 8 9]⟩
def d : Shower := ⟨1, leBytes 8 100, [leBytes 8 0, leBytes 8 4], [leBytes 8 5, leBytes 8 6]⟩

theorem ok : ∀ s ∈ [a, b, c, d], s.Ok := by
  intro s hs
  simp only [List.mem_cons, List.not_mem_nil, or_false] at hs
  rcases hs with rfl | rfl | rfl | rfl <;> refine ⟨?_, ?_, ?_, ?_, ?_, ?_, ?_⟩ <;> decide +kernel

/-- At energy 70 the hadronic showers of energy 100 and of energy 40 are equally near: the first of the file is taken, and the shower with index 1 is `d`. -/
example : ∃ S, load 0 dec id (fun _ => (1, 40)) (some (fileOf [a, b, c, d])) = .ok S ∧ createFrom (exact' Rat) abs S 70 1 1 = .ok (⟨[0, 4], [5, 6]⟩, 7 / 10) := by
  obtain ⟨S, h1, h2⟩ := C83_create_partial (K := Rat) dec id (fun _ => (1, 40)) [a, b, c, d] ok 1 (by decide +kernel) (fun _ => ⟨b, by decide +kernel, by decide +kernel⟩)
  obtain ⟨e, ⟨pre, post, h3, h4, h5⟩, h6⟩ := h2 70
  have hl : ((ofKind [a, b, c, d] 1).map fun s => dec s.energy) = [100, 40, 100] := by decide +kernel
  rw [hl] at h3
  have he : e = 100 := by
    match pre with
    | [] => simpa using (List.cons.inj h3).1.symm
    | x :: pre =>
      obtain ⟨hx, h3⟩ := List.cons.inj h3
      have h7 := h4 x (by simp)
      have : e ∈ [(40 : Rat), 100] := by rw [h3]; simp
      rcases (by simpa using this : e = 40 ∨ e = 100) with rfl | rfl
      · rw [← hx] at h7
        exact absurd h7 (by rw [show |(70 - 40 : Rat)| = 30 by rw [abs_of_nonneg] <;> norm_num]; rw [show |(70 - 100 : Rat)| = 30 by rw [abs_of_nonpos] <;> norm_num]; norm_num)
      · rfl
  subst he
  refine ⟨S, h1, ?_⟩
  have := h6 1 d (by decide +kernel)
  rw [show ((1 : Nat) : Int) = 1 by rfl] at this
  rw [this]
  have e1 : d.profile dec id = ⟨[0, 4], [5, 6]⟩ := by
    have h8 : d.grammage.map (fun w => id (dec w)) = [0, 4] ∧ d.charge.map dec = [5, 6] := by decide +kernel
    unfold Shower.profile
    rw [h8.1, h8.2]
  rw [e1, show (70 / 100 : Rat) = 7 / 10 by norm_num]

end Ex83

/-- The record that the constructor adds at the end of the file can be the one that is chosen: here the file has one shower of the requested kind, but the shower that is created is made
    from an empty profile, and getting its points is undefined. -/
theorem C51_stray_record : ∃ (junk : Nat → Int × Rat) (S : Store Rat) (en : Rat) (r : Profile Rat × Rat), load 0 Ex83.dec id junk (some (fileOf [Ex83.a])) = .ok S ∧
    createFrom (exact' Rat) abs S en 1 0 = .ok r ∧ r.1.grammage = [] ∧ ∀ s : Setup Rat, s.profile = r.1 → ∀ fuel, getShower (exact' Rat) fuel s = .ub := by
  have h := loadLoop_ok (0 : Rat) Ex83.dec id (fun _ => (1, 50)) [Ex83.a] ((fileOf [Ex83.a]).length + 1) 0 Store.none (fun s hs => Ex83.ok s (by simp at hs; simp [hs])) (by decide +kernel)
  refine ⟨fun _ => (1, 50), _, 60, (⟨[], []⟩, 6 / 5), h, ?_, rfl, fun s hs fuel => ?_⟩
  · obtain ⟨hp, he⟩ := stored ([Ex83.a].map (Shower.record Ex83.dec id) ++ [(⟨1, 50, ⟨[], []⟩⟩ : Record Rat)])
    unfold createFrom createShower
    rw [he, show firsts ((([Ex83.a].map (Shower.record Ex83.dec id) ++ [(⟨1, 50, ⟨[], []⟩⟩ : Record Rat)]).filter fun r => decide (r.hadronic = 1)).map Record.energy) = [100, 50] by decide +kernel,
      show closestEnergy (exact' Rat) abs 60 [100, 50] = .ok 50 by
        show Res.ok (if (exact' Rat).lt (abs ((60 : Rat) - 50)) (abs ((60 : Rat) - 100)) then (50 : Rat) else 100) = _
        rw [if_pos (by decide +kernel)], Res.ok_bind, if_neg (by decide), hp,
      show (([Ex83.a].map (Shower.record Ex83.dec id) ++ [(⟨1, 50, ⟨[], []⟩⟩ : Record Rat)]).filter fun r => decide (r.hadronic = 1 ∧ r.energy = 50)) = [⟨1, 50, ⟨[], []⟩⟩] by
        have e1 : decide ((Ex83.a.record Ex83.dec id).hadronic = 1 ∧ (Ex83.a.record Ex83.dec id).energy = 50) = false := by decide +kernel
        simp only [List.map_cons, List.map_nil, List.cons_append, List.nil_append, List.filter_cons, e1]
        simp]
    show Res.ok ((⟨[], []⟩ : Profile Rat), (60 / 50 : Rat)) = _
    rw [show (60 / 50 : Rat) = 6 / 5 by norm_num]
  · unfold getShower
    rw [hs]
    rfl

/-- A file that ends within a shower is accepted: of a file that lacks the charges of its only shower, a shower with charges of 0 is created. -/
theorem C83_truncated_accepted : ∃ (f : List Nat) (S : Store Rat), f ++ Ex83.a.charge.flatten = fileOf [Ex83.a] ∧ load 0 Ex83.dec id (fun _ => (0, 0)) (some f) = .ok S ∧
    createFrom (exact' Rat) abs S 100 1 0 = .ok (⟨[0, 3], [0, 0]⟩, 1) := by
  refine ⟨(fileOf [Ex83.a]).take 32, (Store.none.add ⟨1, 100, ⟨[0, 3], [0, 0]⟩⟩).add ⟨0, 0, ⟨[], []⟩⟩, by decide +kernel, ?_, ?_⟩
  · have h1 : readShower 0 Ex83.dec id (0, 0) ((fileOf [Ex83.a]).take 32) = .ok (false, ⟨1, 100, ⟨[0, 3], [0, 0]⟩⟩, []) := by
      have e1 : (fileOf [Ex83.a]).take 32 = leBytes 4 2 ++ (leBytes 4 1 ++ (leBytes 8 100 ++ ([leBytes 8 0, leBytes 8 3].flatten ++ []))) := by decide +kernel
      rw [e1]
      unfold readShower
      rw [fread_one 4 _ _ (length_leBytes 4 _)]
      dsimp only
      rw [fread_one 4 _ _ (length_leBytes 4 _)]
      dsimp only
      rw [fread_one 8 _ _ (length_leBytes 8 _)]
      dsimp only
      rw [show toInt (leBytes 4 2) = 2 by decide +kernel, if_neg (by decide), if_neg (by decide), show (2 : Int).toNat = 2 from rfl, fread_flatten 8 2 _ _ (by decide +kernel) rfl]
      dsimp only
      rw [show toInt (leBytes 4 1) = 1 by decide +kernel, show Ex83.dec (leBytes 8 100) = 100 by decide +kernel,
        show (filled 0 Ex83.dec 2 [leBytes 8 0, leBytes 8 3]).map id = [0, 3] by decide +kernel, show filled 0 Ex83.dec 2 (fread 8 2 []).1 = [0, 0] by decide +kernel]
      rfl
    unfold load
    dsimp only
    rw [show ((fileOf [Ex83.a]).take 32).length + 1 = 31 + 1 + 1 by decide +kernel]
    rw [loadLoop, h1, Res.ok_bind]
    rfl
  · unfold createFrom createShower
    have h1 : ((Store.none.add ⟨1, 100, ⟨[0, 3], [0, 0]⟩⟩).add ⟨0, 0, ⟨[], []⟩⟩ : Store Rat).energies 1 = [100] := by decide +kernel
    have h2 : ((Store.none.add ⟨1, 100, ⟨[0, 3], [0, 0]⟩⟩).add ⟨0, 0, ⟨[], []⟩⟩ : Store Rat).profiles 1 100 = [⟨[0, 3], [0, 0]⟩] := by
      simp [Store.add, Store.none]
    rw [h1]
    show (Res.ok (100 : Rat)).bind _ = _
    rw [Res.ok_bind, if_neg (by decide), h2]
    show Res.ok ((⟨[0, 3], [0, 0]⟩ : Profile Rat), (100 / 100 : Rat)) = _
    rw [show (100 / 100 : Rat) = 1 by norm_num]

/-- A file that does not exist is not reported: the behaviour is undefined. -/
theorem C83_missing_file (zero : K) (dec : List Nat → K) (scale : K → K) (junk : Nat → Int × K) : load zero dec scale junk none = .ub := rfl

end Verif.Shower
