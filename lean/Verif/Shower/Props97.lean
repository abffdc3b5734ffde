import Verif.Shower.Convert
import Verif.Shower.Props83
/-
C97 (showers of the ARZ library reach the simulation unchanged: converted by convert_shower_profile.py, loaded by `ShowerCreator`).
-/
namespace Verif.Shower
open Verif Verif.Bytes

variable {K : Type}

/-! ### Specification -/

/-- A shower of the library: the name of its kind, its energy, the depths and the charge excess at these depths. -/
structure LibShower (K : Type) where
  name : String
  energy : K
  depth : List K
  charge : List K

/-- The showers of a library, in its order. -/
def showersOf (lib : List (String × List (Entry K))) : List (LibShower K) :=
  lib.flatMap fun p => p.2.flatMap fun e => e.charge_excess.map fun q => ⟨p.1, e.energy, e.depth, q⟩

/-- The number by which `create_shower` is told the kind: 1 for hadronic showers. -/
def kindOf (name : String) : Int := if name = "HAD" then 1 else 0

/-- There are some depths, not too many, and a charge for each of them. -/
structure LibShower.Ok (s : LibShower K) : Prop where
  some : 0 < s.depth.length
  few : s.depth.length < 2 ^ 31
  same : s.charge.length = s.depth.length

/-! ### The file that is written -/

/-- The shower in the file. -/
def LibShower.stored (enc : K → List Nat) (div : K → K → K) (kgm2 coulomb : K) (s : LibShower K) : Shower :=
  ⟨kindOf s.name, enc s.energy, s.depth.map fun d => enc (div d kgm2), s.charge.map fun q => enc (div q coulomb)⟩

theorem writeShower_ok (enc : K → List Nat) (div : K → K → K) (kgm2 coulomb : K) (s : LibShower K) (h : s.depth.length < 2 ^ 31) :
    writeShower enc div kgm2 s.energy s.name s.depth (s.charge.map fun x => div x coulomb) = .ok (s.stored enc div kgm2 coulomb).bytes := by
  unfold writeShower
  rw [if_neg (by omega)]
  have e1 : (kindOf s.name % 2 ^ 32).toNat = if s.name = "HAD" then 1 else 0 := by
    unfold kindOf
    split <;> rfl
  unfold LibShower.stored Shower.bytes
  dsimp only
  rw [List.length_map, e1, List.flatMap_map, List.flatMap_def, List.flatMap_def]
  simp only [List.append_assoc]

theorem writeEntry_ok (enc : K → List Nat) (div : K → K → K) (kgm2 coulomb : K) (type : String) (e : Entry K) : ∀ qs : List (List K), (qs ≠ [] → e.depth.length < 2 ^ 31) →
    writeEntry enc div kgm2 coulomb type e qs = .ok (fileOf (qs.map fun q => (⟨type, e.energy, e.depth, q⟩ : LibShower K).stored enc div kgm2 coulomb))
  | [], _ => rfl
  | q :: qs, h => by
    unfold writeEntry
    have h1 := writeShower_ok enc div kgm2 coulomb (⟨type, e.energy, e.depth, q⟩ : LibShower K) (h (by simp))
    dsimp only at h1
    rw [h1, Res.ok_bind, writeEntry_ok enc div kgm2 coulomb type e qs (fun _ => h (by simp)), Res.ok_bind]
    rfl

theorem writeKind_ok (enc : K → List Nat) (div : K → K → K) (kgm2 coulomb : K) (type : String) : ∀ es : List (Entry K), (∀ e ∈ es, e.charge_excess ≠ [] → e.depth.length < 2 ^ 31) →
    writeKind enc div kgm2 coulomb type es
      = .ok (fileOf ((es.flatMap fun e => e.charge_excess.map fun q => (⟨type, e.energy, e.depth, q⟩ : LibShower K)).map (LibShower.stored enc div kgm2 coulomb)))
  | [], _ => rfl
  | e :: es, h => by
    unfold writeKind
    rw [writeEntry_ok enc div kgm2 coulomb type e e.charge_excess (h e (by simp)), Res.ok_bind,
      writeKind_ok enc div kgm2 coulomb type es (fun e' he => h e' (by simp [he])), Res.ok_bind]
    simp only [fileOf, List.flatMap_cons, List.map_append, List.map_map, List.flatMap_append]
    rfl

theorem convert_ok (enc : K → List Nat) (div : K → K → K) (kgm2 coulomb : K) : ∀ lib : List (String × List (Entry K)), (∀ s ∈ showersOf lib, s.depth.length < 2 ^ 31) →
    convert enc div kgm2 coulomb lib = .ok (fileOf ((showersOf lib).map (LibShower.stored enc div kgm2 coulomb)))
  | [], _ => rfl
  | (type, es) :: lib, h => by
    unfold convert
    have hmem : ∀ e ∈ es, ∀ q ∈ e.charge_excess, e.depth.length < 2 ^ 31 := by
      intro e he q hq
      refine h ⟨type, e.energy, e.depth, q⟩ ?_
      unfold showersOf
      rw [List.flatMap_cons, List.mem_append]
      exact Or.inl (List.mem_flatMap.2 ⟨e, he, List.mem_map.2 ⟨q, hq, rfl⟩⟩)
    rw [writeKind_ok enc div kgm2 coulomb type es, Res.ok_bind, convert_ok enc div kgm2 coulomb lib, Res.ok_bind]
    · simp only [fileOf, showersOf, List.flatMap_cons, List.map_append, List.flatMap_append]
    · intro s hs
      refine h s ?_
      unfold showersOf at hs ⊢
      rw [List.flatMap_cons, List.mem_append]
      exact Or.inr hs
    · intro e he hne
      obtain ⟨q, qs, hq⟩ := List.exists_cons_of_ne_nil hne
      exact hmem e he q (by rw [hq]; simp)

theorem writeEntry_throw (enc : K → List Nat) (div : K → K → K) (kgm2 coulomb : K) (type : String) (e : Entry K) : ∀ qs : List (List K), qs ≠ [] → 2 ^ 31 ≤ e.depth.length →
    writeEntry enc div kgm2 coulomb type e qs = .throw
  | [], h, _ => absurd rfl h
  | q :: qs, _, h => by
    unfold writeEntry writeShower
    rw [if_pos h]
    rfl

theorem writeKind_cases (enc : K → List Nat) (div : K → K → K) (kgm2 coulomb : K) (type : String) : ∀ es : List (Entry K),
    (∃ b, writeKind enc div kgm2 coulomb type es = .ok b) ∧ (∀ e ∈ es, e.charge_excess ≠ [] → e.depth.length < 2 ^ 31) ∨ writeKind enc div kgm2 coulomb type es = .throw
  | [] => Or.inl ⟨⟨_, rfl⟩, by simp⟩
  | e :: es => by
    unfold writeKind
    by_cases h : e.charge_excess ≠ [] → e.depth.length < 2 ^ 31
    · rw [writeEntry_ok enc div kgm2 coulomb type e _ h, Res.ok_bind]
      rcases writeKind_cases enc div kgm2 coulomb type es with ⟨⟨b, hb⟩, h'⟩ | hb
      · refine Or.inl ⟨⟨_, by rw [hb]; rfl⟩, ?_⟩
        intro e' he'
        rcases List.mem_cons.1 he' with rfl | he'
        · exact h
        · exact h' e' he'
      · right
        rw [hb]
        rfl
    · rw [Classical.not_imp] at h
      right
      rw [writeEntry_throw enc div kgm2 coulomb type e _ h.1 (by omega)]
      rfl

/-- A library with a shower of more depths than the format can hold is rejected. -/
theorem C97_too_long (enc : K → List Nat) (div : K → K → K) (kgm2 coulomb : K) : ∀ lib : List (String × List (Entry K)), (∃ s ∈ showersOf lib, 2 ^ 31 ≤ s.depth.length) →
    convert enc div kgm2 coulomb lib = .throw
  | [], ⟨_, h, _⟩ => by simp [showersOf] at h
  | (type, es) :: lib, ⟨s, hs, hl⟩ => by
    unfold convert
    rcases writeKind_cases enc div kgm2 coulomb type es with ⟨⟨b, hb⟩, h'⟩ | hb
    · rw [hb, Res.ok_bind]
      unfold showersOf at hs
      rw [List.flatMap_cons, List.mem_append] at hs
      rcases hs with hs | hs
      · obtain ⟨e, he, hq'⟩ := List.mem_flatMap.1 hs
        obtain ⟨q, hq, rfl⟩ := List.mem_map.1 hq'
        have := h' e he (List.ne_nil_of_mem hq)
        dsimp only at hl
        omega
      · rw [C97_too_long enc div kgm2 coulomb lib ⟨s, hs, hl⟩]
        rfl
    · rw [hb]
      rfl

/-- For instance, a library with a shower of as many depths. -/
example (n : Nat) (hn : 2 ^ 31 ≤ n) : convert (fun x : Rat => leBytes 8 x.num.toNat) (fun a b => a / b) 1 1 [("EM", [⟨1, List.replicate n 0, [[]]⟩])] = .throw :=
  C97_too_long _ _ _ _ _ ⟨⟨"EM", 1, List.replicate n 0, []⟩, by simp [showersOf], by rw [List.length_replicate]; exact hn⟩

section Exact
variable [Field K] [LinearOrder K] [IsStrictOrderedRing K]

/-- The showers of a library that a number stands for. -/
def kindShowers (lib : List (String × List (Entry K))) (kind : Int) : List (LibShower K) := (showersOf lib).filter fun s => decide (kindOf s.name = kind)

/-- The arithmetic of doubles: the numbers that are doubles are given back by their bytes; where the exact result is in the range of the doubles, the operations give a double and have a relative
    error of at most `u`. -/
structure Doubles (enc : K → List Nat) (dec : List Nat → K) (double range : K → Prop) (mul div : K → K → K) (u : K) : Prop where
  size : ∀ x, (enc x).length = 8
  back : ∀ x, double x → dec (enc x) = x
  quot : ∀ a b, range (a / b) → double (div a b)
  div : ∀ a b, range (a / b) → |div a b - a / b| ≤ u * |a / b|
  mul : ∀ a b, range (a * b) → |mul a b - a * b| ≤ u * |a * b|

/-- The numbers of a shower are doubles, and no conversion of units leaves the range of the doubles. -/
structure LibShower.InRange (double range : K → Prop) (mul div : K → K → K) (py_kgm2 py_coulomb kg m2 : K) (s : LibShower K) : Prop where
  energy : double s.energy
  written : ∀ d ∈ s.depth, range (d / py_kgm2)
  product : ∀ d ∈ s.depth, range (div d py_kgm2 * kg)
  read : ∀ d ∈ s.depth, range (mul (div d py_kgm2) kg / m2)
  charge : ∀ q ∈ s.charge, range (q / py_coulomb)

/-- A quotient that is multiplied and divided again, with rounding. -/
theorem three_roundings {enc : K → List Nat} {dec : List Nat → K} {double range : K → Prop} {mul div : K → K → K} {u : K} (hu : 0 ≤ u) (hD : Doubles enc dec double range mul div u) (d a b c : K)
    (r1 : range (d / a)) (r2 : range (div d a * b)) (r3 : range (mul (div d a) b / c)) :
    |div (mul (div d a) b) c - d / a * (b / c)| ≤ ((1 + u) ^ 3 - 1) * |d / a * (b / c)| := by
  have near : ∀ {x y M : K} (z : K), |x - y| ≤ M * |y| → |x * z - y * z| ≤ M * |y * z| := by
    intro x y M z h
    rw [← sub_mul, abs_mul, abs_mul, ← mul_assoc]
    exact mul_le_mul_of_nonneg_right h (abs_nonneg z)
  have step : ∀ {x y z M : K}, 0 ≤ M → |x - y| ≤ u * |y| → |y - z| ≤ M * |z| → |x - z| ≤ ((1 + M) * (1 + u) - 1) * |z| := by
    intro x y z M hM h1 h2
    have h3 : |y| ≤ (1 + M) * |z| := by
      have h4 := abs_add_le (y - z) z
      rw [sub_add_cancel] at h4
      linarith
    have h5 : |x - z| ≤ |x - y| + |y - z| := by
      have h6 := abs_add_le (x - y) (y - z)
      rwa [sub_add_sub_cancel] at h6
    have h6 := mul_le_mul_of_nonneg_left h3 hu
    nlinarith
  have h1 : |div d a - d / a| ≤ u * |d / a| := hD.div d a r1
  have h2 := step hu (hD.mul (div d a) b r2) (near b h1)
  have h3 := near (1 / c) h2
  rw [mul_one_div, mul_one_div] at h3
  have h4 := step (by nlinarith) (hD.div (mul (div d a) b) c r3) h3
  have e1 : d / a * b / c = d / a * (b / c) := mul_div_assoc _ _ _
  rw [e1] at h4
  have e2 : (1 + ((1 + u) * (1 + u) - 1)) * (1 + u) - 1 = (1 + u) ^ 3 - 1 := by ring
  rwa [e2] at h4

theorem forall₂_map {α β : Type} {P : α → β → Prop} (f : α → β) : ∀ l : List α, (∀ x ∈ l, P x (f x)) → List.Forall₂ P l (l.map f)
  | [], _ => .nil
  | x :: l, h => .cons (h x (by simp)) (forall₂_map f l fun y hy => h y (by simp [hy]))

/-- **C97.** For every library of showers in which each shower has some depths and a charge for each of them: the conversion succeeds, and the file is accepted. Creating a shower of a kind that
    is in the library uses the `i`-th shower of this kind with the nearest energy, in the order of the library: a depth of `x` kg/m² is a grammage of `x` kg/m², in the units of the
    simulation, and the charge is that of the library in Coulomb, up to three roundings and one.
    What is missing: as in C83, this is only so if the record that is added at the end of the file, with whatever is found in uninitialised memory (`junk`), is of another kind or repeats
    an energy of this kind; and charge lists of another length than that of the depths are not noticed (`C97_lengths`). -/
theorem C97_convert_partial {enc : K → List Nat} {dec : List Nat → K} {double range : K → Prop} {mul div : K → K → K} {u : K} (hu : 0 ≤ u) (hD : Doubles enc dec double range mul div u)
    (py_kgm2 py_coulomb kg m2 : K) (lib : List (String × List (Entry K))) (hlib : ∀ s ∈ showersOf lib, s.Ok) 
    (hrange : ∀ s ∈ showersOf lib, s.InRange double range mul div py_kgm2 py_coulomb kg m2) :
    ∃ file, convert enc div py_kgm2 py_coulomb lib = .ok file ∧ ∀ (junk : Nat → Int × K) (kind : Int), kindShowers lib kind ≠ [] →
      ((junk (showersOf lib).length).1 = kind → ∃ s ∈ kindShowers lib kind, s.energy = (junk (showersOf lib).length).2) →
      ∃ S, load 0 dec (fun g => div (mul g kg) m2) junk (some file) = .ok S ∧ ∀ en : K, ∃ e, FirstNearest en ((kindShowers lib kind).map LibShower.energy) e ∧
        ∀ (i : Nat) (s : LibShower K), ((kindShowers lib kind).filter fun s => decide (s.energy = e))[i]? = some s →
          ∃ p : Profile K, createFrom (exact' K) abs S en kind i = .ok (p, en / e) ∧
            List.Forall₂ (fun d g => |g - d / py_kgm2 * (kg / m2)| ≤ ((1 + u) ^ 3 - 1) * |d / py_kgm2 * (kg / m2)|) s.depth p.grammage ∧
            List.Forall₂ (fun q c => |c - q / py_coulomb| ≤ u * |q / py_coulomb|) s.charge p.charge := by
  refine ⟨_, convert_ok enc _ py_kgm2 py_coulomb lib (fun s hs => (hlib s hs).few), fun junk kind hne hj => ?_⟩
  set st := LibShower.stored enc div py_kgm2 py_coulomb with hst
  have hof : ofKind ((showersOf lib).map st) kind = (kindShowers lib kind).map st := by
    unfold ofKind kindShowers
    rw [List.filter_map]
    rfl
  have hsub : ∀ s ∈ kindShowers lib kind, s ∈ showersOf lib := fun s hs => (List.mem_filter.1 hs).1
  have hen : ∀ s ∈ kindShowers lib kind, dec (st s).energy = s.energy := fun s hs => hD.back _ (hrange s (hsub s hs)).energy
  obtain ⟨S, h1, h2⟩ := C83_create_partial dec (fun g => div (mul g kg) m2) junk ((showersOf lib).map st)
    (by
      intro s' hs'
      obtain ⟨s, hs, rfl⟩ := List.mem_map.1 hs'
      have h := hlib s hs
      refine ⟨?_, hD.size _, ?_, ?_, ?_, ?_, ?_⟩
      · show -2 ^ 31 ≤ kindOf s.name ∧ kindOf s.name < 2 ^ 31
        unfold kindOf
        split <;> decide
      · show 0 < (s.depth.map _).length
        rw [List.length_map]; exact h.some
      · show (s.depth.map _).length < 2 ^ 31
        rw [List.length_map]; exact h.few
      · show (s.charge.map _).length = (s.depth.map _).length
        rw [List.length_map, List.length_map]; exact h.same
      · intro w hw
        obtain ⟨d, _, rfl⟩ := List.mem_map.1 hw
        exact hD.size _
      · intro w hw
        obtain ⟨d, _, rfl⟩ := List.mem_map.1 hw
        exact hD.size _)
    kind (by rw [hof]; simpa using hne)
    (by
      intro hk
      rw [List.length_map] at hk ⊢
      obtain ⟨s, hs, he⟩ := hj hk
      exact ⟨st s, by rw [hof]; exact List.mem_map.2 ⟨s, hs, rfl⟩, by rw [hen s hs]; exact he⟩)
  refine ⟨S, h1, fun en => ?_⟩
  obtain ⟨e, h3, h4⟩ := h2 en
  have hmap : ((ofKind ((showersOf lib).map st) kind).map fun s => dec s.energy) = (kindShowers lib kind).map LibShower.energy := by
    rw [hof, List.map_map]
    exact List.map_congr_left fun s hs => hen s hs
  rw [hmap] at h3
  refine ⟨e, h3, fun i s hi => ?_⟩
  have hf : (ofKind ((showersOf lib).map st) kind).filter (fun s => decide (dec s.energy = e)) = ((kindShowers lib kind).filter fun s => decide (s.energy = e)).map st := by
    rw [hof, List.filter_map]
    congr 1
    apply List.filter_congr
    intro x hx
    show decide (dec (st x).energy = e) = _
    rw [hen x hx]
  have hr := hrange s (hsub s (List.mem_filter.1 (List.mem_of_getElem? hi)).1)
  refine ⟨_, h4 i (st s) (by rw [hf, List.getElem?_map, hi]; rfl), ?_, ?_⟩
  · rw [hst]
    unfold Shower.profile LibShower.stored
    dsimp only
    rw [List.map_map]
    refine forall₂_map _ _ fun d hd => ?_
    show |div (mul (dec (enc (div d py_kgm2))) kg) m2 - _| ≤ _
    rw [hD.back _ (hD.quot _ _ (hr.written d hd))]
    exact three_roundings hu hD d py_kgm2 kg m2 (hr.written d hd) (hr.product d hd) (hr.read d hd)
  · rw [hst]
    unfold Shower.profile LibShower.stored
    dsimp only
    rw [List.map_map]
    refine forall₂_map _ _ fun q hq => ?_
    show |dec (enc (div q py_coulomb)) - _| ≤ _
    rw [hD.back _ (hD.quot _ _ (hr.charge q hq))]
    exact hD.div q py_coulomb (hr.charge q hq)

end Exact

/-! ### Examples and a negative result -/

namespace Ex97

/-- For the examples: the numbers are small natural numbers, whose arithmetic is exact. -/
def enc (x : Rat) : List Nat := leBytes 8 x.num.toNat
def double (x : Rat) : Prop := ∃ n : Nat, n < 2 ^ 64 ∧ x = n

theorem doubles : Doubles enc Ex83.dec double double (fun a b => a * b) (fun a b => a / b) 0 where
  size _ := length_leBytes 8 _
  back := by
    rintro x ⟨n, hn, rfl⟩
    show ((leVal (leBytes 8 ((n : Rat).num.toNat)) : Nat) : Rat) = n
    rw [Rat.num_natCast, Int.toNat_natCast, leVal_leBytes, show 256 ^ 8 = 2 ^ 64 by norm_num, Nat.mod_eq_of_lt hn]
  quot _ _ h := h
  div _ _ _ := by simp
  mul _ _ _ := by simp

/-- A library with hadronic showers of two energies and an electromagnetic one; depths in units of 2. -/
def lib : List (String × List (Entry Rat)) := [("HAD", [⟨100, [0, 6], [[3, 6], [15, 18]]⟩, ⟨40, [0, 10], [[21, 24]]⟩]), ("EM", [⟨60, [4], [[27]]⟩])]

theorem lib_ok : ∀ s ∈ showersOf lib, s.Ok := by
  intro s hs
  simp only [showersOf, lib, List.flatMap_cons, List.flatMap_nil, List.map_cons, List.map_nil, List.append_nil, List.cons_append, List.nil_append, List.mem_cons, List.not_mem_nil, or_false] at hs
  rcases hs with rfl | rfl | rfl | rfl <;> exact ⟨by decide, by decide, by decide⟩

theorem lib_range : ∀ s ∈ showersOf lib, s.InRange double double (fun a b => a * b) (fun a b => a / b) 2 3 12 4 := by
  have hd : ∀ (x : Rat), (0 ≤ x.num ∧ x.num < 1000 ∧ x.den = 1) → double x := by
    intro x h
    refine ⟨x.num.toNat, by omega, ?_⟩
    have h1 : ((x.num.toNat : Nat) : Rat) = (x.num : Rat) := by
      have h2 : ((x.num.toNat : Nat) : Int) = x.num := Int.toNat_of_nonneg h.1
      exact_mod_cast h2
    rw [h1]
    have h3 := Rat.num_div_den x
    rw [h.2.2] at h3
    simpa using h3.symm
  intro s hs
  simp only [showersOf, lib, List.flatMap_cons, List.flatMap_nil, List.map_cons, List.map_nil, List.append_nil, List.cons_append, List.nil_append, List.mem_cons, List.not_mem_nil, or_false] at hs
  rcases hs with rfl | rfl | rfl | rfl <;>
    exact ⟨hd _ (by decide +kernel), fun d h => hd _ (by revert d; decide +kernel), fun d h => hd _ (by revert d; decide +kernel), fun d h => hd _ (by revert d; decide +kernel),
      fun d h => hd _ (by revert d; decide +kernel)⟩

/-- The first hadronic shower of energy 40: of depth 10, which are five units of the library, each worth three units of the simulation. -/
example : ∃ file S p, convert enc (fun a b => a / b) 2 3 lib = .ok file ∧ load 0 Ex83.dec (fun g => g * 12 / 4) (fun _ => (1, 40)) (some file) = .ok S ∧
    createFrom (exact' Rat) abs S 50 1 0 = .ok (p, 5 / 4) ∧ p.grammage = [0, 15] ∧ p.charge = [7, 8] := by
  obtain ⟨file, h1, h2⟩ := C97_convert_partial (le_refl (0 : Rat)) doubles 2 3 12 4 lib lib_ok lib_range
  obtain ⟨S, h3, h4⟩ := h2 (fun _ => (1, 40)) 1 (by
      intro h
      have h' := congrArg List.length h
      revert h'
      decide +kernel) (fun _ => ⟨⟨"HAD", 40, [0, 10], [21, 24]⟩, by
      unfold kindShowers
      rw [List.mem_filter]
      exact ⟨by simp [showersOf, lib], by decide⟩, rfl⟩)
  obtain ⟨e, ⟨pre, post, h5, h6, h7⟩, h8⟩ := h4 50
  have hl : (kindShowers lib 1).map LibShower.energy = [100, 100, 40] := by decide +kernel
  rw [hl] at h5
  have he : e = 40 := by
    match pre, h5 with
    | [], h5 =>
      have h9 : e = 100 := ((List.cons.inj h5).1).symm
      have h10 := h7 40 (by rw [← (List.cons.inj h5).2]; simp)
      rw [h9] at h10
      exact absurd h10 (by decide +kernel)
    | [x], h5 =>
      have h9 : e = 100 := ((List.cons.inj (List.cons.inj h5).2).1).symm
      have h10 := h7 40 (by rw [← (List.cons.inj (List.cons.inj h5).2).2]; simp)
      rw [h9] at h10
      exact absurd h10 (by decide +kernel)
    | [x, y], h5 => exact ((List.cons.inj (List.cons.inj (List.cons.inj h5).2).2).1).symm
    | x :: y :: z :: l, h5 =>
      have := congrArg List.length h5
      simp at this
  subst he
  have hk : kindShowers lib 1 = [⟨"HAD", 100, [0, 6], [3, 6]⟩, ⟨"HAD", 100, [0, 6], [15, 18]⟩, ⟨"HAD", 40, [0, 10], [21, 24]⟩] := by
    unfold kindShowers
    simp [showersOf, lib, kindOf]
  obtain ⟨p, h9, h10, h11⟩ := h8 0 ⟨"HAD", 40, [0, 10], [21, 24]⟩ (by
    rw [hk]
    norm_num [List.filter_cons])
  refine ⟨file, S, p, h1, h3, ?_, ?_, ?_⟩
  · rw [show ((0 : Nat) : Int) = 0 from rfl] at h9
    rw [h9, show (50 / 40 : Rat) = 5 / 4 by norm_num]
  · obtain ⟨gs, cs⟩ := p
    have h12 : List.Forall₂ (fun d g : Rat => g = d / 2 * (12 / 4)) [0, 10] gs := h10.imp fun a b h => by
      have : |b - a / 2 * (12 / 4)| ≤ 0 := by simpa using h
      exact sub_eq_zero.1 (abs_nonpos_iff.1 this)
    cases h12 with
    | cons a h12 => cases h12 with
      | cons b h12 => cases h12; rw [a, b]; norm_num
  · obtain ⟨gs, cs⟩ := p
    have h12 : List.Forall₂ (fun q c : Rat => c = q / 3) [21, 24] cs := h11.imp fun a b h => by
      have : |b - a / 3| ≤ 0 := by simpa using h
      exact sub_eq_zero.1 (abs_nonpos_iff.1 this)
    cases h12 with
    | cons a h12 => cases h12 with
      | cons b h12 => cases h12; rw [a, b]; norm_num

end Ex97

/-- A list of charges that is longer than that of the depths is not noticed, neither by the conversion nor when the file is read: the charges that are too many are taken for the next shower. From
    this library with one hadronic shower of energy 100, an electromagnetic shower of energy 60 is created. -/
theorem C97_lengths : ∃ (lib : List (String × List (Entry Rat))) (file : List Nat) (S : Store Rat), (∀ s ∈ showersOf lib, s.name = "HAD" ∧ s.energy = 100 ∧ s.charge.length ≠ s.depth.length) ∧
    convert Ex97.enc (fun a b => a / b) 1 1 lib = .ok file ∧ load 0 Ex83.dec id (fun _ => (1, 100)) (some file) = .ok S ∧
    createFrom (exact' Rat) abs S 60 0 0 = .ok (⟨[2], [9]⟩, 1) := by
  have hf : convert Ex97.enc (fun a b => a / b) 1 1 [("HAD", [⟨100, [0, 3], [[1, 2, 1, 60, 2, 9]]⟩])] = .ok (fileOf [Ex83.a, Ex83.c]) := by decide +kernel
  obtain ⟨S, h1, h2⟩ := C83_create_partial (K := Rat) Ex83.dec id (fun _ => (1, 100)) [Ex83.a, Ex83.c] (fun s hs => Ex83.ok s (by
    simp only [List.mem_cons, List.not_mem_nil, or_false] at hs
    rcases hs with rfl | rfl <;> simp)) 0 (by decide +kernel) (fun h => absurd h (by decide))
  refine ⟨_, _, S, ?_, hf, h1, ?_⟩
  · intro s hs
    simp only [showersOf, List.flatMap_cons, List.flatMap_nil, List.map_cons, List.map_nil, List.append_nil, List.mem_cons, List.not_mem_nil, or_false] at hs
    subst hs
    exact ⟨rfl, rfl, by decide⟩
  · obtain ⟨e, ⟨pre, post, h3, _, _⟩, h6⟩ := h2 60
    have hl : ((ofKind [Ex83.a, Ex83.c] 0).map fun s => Ex83.dec s.energy) = [60] := by decide +kernel
    rw [hl] at h3
    have he : e = 60 := by
      have : e ∈ [(60 : Rat)] := by rw [h3]; simp
      simpa using this
    subst he
    have := h6 0 Ex83.c (by decide +kernel)
    rw [show ((0 : Nat) : Int) = 0 by rfl] at this
    rw [this]
    have e1 : Ex83.c.profile Ex83.dec id = ⟨[2], [9]⟩ := by
      have h8 : Ex83.c.grammage.map (fun w => id (Ex83.dec w)) = [2] ∧ Ex83.c.charge.map Ex83.dec = [9] := by decide +kernel
      unfold Shower.profile
      rw [h8.1, h8.2]
    rw [e1, show (60 / 60 : Rat) = 1 by norm_num]

end Verif.Shower
