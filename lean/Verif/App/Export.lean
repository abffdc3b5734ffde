import Verif.App.Csv
/-
Model of `ExportSignal` (core/impl/SignalExport.hxx), and the way back with the reader for tables (C73). The format of one number (`operator<<` with the flags of lines 11-15) is a parameter.
-/
namespace Verif.App
open Verif

variable {V : Type}

/-! ### The program -/

/-- SignalExport.hxx 10-16: the loop, from the index `ind` on. `ind` is an `int`: incrementing it beyond 2^31 - 1 is undefined, as is `signal_values[ind]` outside of the vector. What was written to the file so far
    stays there if something undefined happens, which the model does not show. -/
def exportLoop (fmtT fmtV : V → List Char) (vals : List V) : Nat → List V → Res (List Char)
  | _, [] => .ok []
  | ind, t :: ts => match vals[ind]? with
    | none => .ub
    | some v => if ind + 1 < 2 ^ 31 then (exportLoop fmtT fmtV vals (ind + 1) ts).bind fun s => .ok (fmtT t ++ (',' :: ' ' :: fmtV v ++ '\n' :: s)) else .ub

/-- SignalExport.hxx 5-19 `ExportSignal`: the contents of the file. -/
def exportSignal (fmtT fmtV : V → List Char) (times vals : List V) : Res (List Char) := exportLoop fmtT fmtV vals 0 times

/-! ### Specification -/

/-- The text of a number has no comma and no line break, and it is not empty. -/
def Clean (s : List Char) : Prop := ',' ∉ s ∧ '\n' ∉ s ∧ s ≠ []

/-! ### Proof -/

theorem exportLoop_ok (fmtT fmtV : V → List Char) (vals : List V) : ∀ (ts : List V) (ind : Nat), ind + ts.length ≤ vals.length → ind + ts.length < 2 ^ 31 →
    exportLoop fmtT fmtV vals ind ts = .ok (((ts.zip (vals.drop ind)).map fun p => rowText [fmtT p.1, ' ' :: fmtV p.2] ++ ['\n']).flatten)
  | [], ind, _, _ => by simp [exportLoop]
  | t :: ts, ind, h1, h2 => by
    simp only [List.length_cons] at h1 h2
    have hi : ind < vals.length := by omega
    have ih := exportLoop_ok fmtT fmtV vals ts (ind + 1) (by omega) (by omega)
    simp only [exportLoop]
    rw [List.getElem?_eq_getElem hi]
    simp only
    rw [if_pos (by omega), ih, show (t :: ts).zip (vals.drop ind) = (t, vals[ind]) :: ts.zip (vals.drop (ind + 1)) by rw [List.drop_eq_getElem_cons hi]; rfl]
    simp [Res.bind, rowText]

theorem fileText_flatten : ∀ rs : List (List (List Char)), fileText true rs = (rs.map fun r => rowText r ++ ['\n']).flatten
  | [] => rfl
  | [r] => by simp [fileText]
  | r :: r' :: rs => by
    have := fileText_flatten (r' :: rs)
    simp only [fileText, List.map_cons, List.flatten_cons] at *
    rw [this]; simp

/-! ### C75 -/

/-- **C75**: a signal that is exported and read back gives the times (first column) and the values (second column), in order, as they are formatted and parsed; for every signal of fewer than 2^31 samples with as many (or more) values.
    (Missing: longer signals and those with fewer values than times, see `C75_long`, `C75_fewer_values`.) -/
theorem C75_export_partial (fmtT fmtV : V → List Char) (stof : List Char → Res V) (times vals : List V) (hlen : times.length ≤ vals.length) (hmax : times.length < 2 ^ 31) (hT : ∀ t ∈ times, Clean (fmtT t))
    (hV : ∀ v ∈ vals, Clean (fmtV v)) (rT rV : V → V) (hrT : ∀ t ∈ times, stof (fmtT t) = .ok (rT t)) (hrV : ∀ v ∈ vals, stof (' ' :: fmtV v) = .ok (rV v)) :
    ∃ s, exportSignal fmtT fmtV times vals = .ok s ∧ readFile stof 0 s = .ok (times.map rT) ∧ readFile stof 1 s = .ok ((vals.take times.length).map rV) := by
  have e := exportLoop_ok fmtT fmtV vals times 0 (by omega) (by omega)
  rw [List.drop_zero] at e
  refine ⟨_, e, ?_⟩
  have hz : ∀ p ∈ times.zip vals, p.1 ∈ times ∧ p.2 ∈ vals := fun p hp => ⟨(List.of_mem_zip hp).1, (List.of_mem_zip hp).2⟩
  have good : ∀ p ∈ times.zip vals, GoodRow [fmtT p.1, ' ' :: fmtV p.2] ∧ Reads stof [fmtT p.1, ' ' :: fmtV p.2] [rT p.1, rV p.2] := fun p hp => by
    obtain ⟨h1, h2⟩ := hz p hp
    have a := hT _ h1
    have b := hV _ h2
    refine ⟨⟨?_, ?_⟩, ?_⟩
    · intro f hf
      rcases List.mem_cons.1 hf with rfl | hf
      · exact ⟨a.1, a.2.1⟩
      · rw [List.mem_singleton.1 hf]
        simp only [List.mem_cons, not_or]
        exact ⟨⟨by decide, b.1⟩, by decide, b.2.1⟩
    · show fmtT p.1 ++ _ ≠ []
      simp
    · show [stof (fmtT p.1), stof (' ' :: fmtV p.2)] = _
      rw [hrT _ h1, hrV _ h2]; rfl
  have text : ∀ pick : V × V → V, ((times.zip vals).map fun p => rowText [fmtT p.1, ' ' :: fmtV p.2] ++ ['\n']).flatten =
      fileText true (((times.zip vals).map fun p => ([fmtT p.1, ' ' :: fmtV p.2], [rT p.1, rV p.2], pick p)).map Prod.fst) := fun pick => by
    rw [fileText_flatten, List.map_map, List.map_map]
    rfl
  constructor
  · rw [text fun p => rT p.1, C73_column_partial stof 0 true _ (by
      intro r hr
      obtain ⟨p, p1, rfl⟩ := List.mem_map.1 hr
      exact ⟨(good p p1).1, (good p p1).2, rfl⟩), List.map_map]
    congr 1
    have : times.map rT = ((times.zip vals).map Prod.fst).map rT := by rw [List.map_fst_zip (by omega)]
    rw [this, List.map_map]
    rfl
  · rw [text fun p => rV p.2, C73_column_partial stof 1 true _ (by
      intro r hr
      obtain ⟨p, p1, rfl⟩ := List.mem_map.1 hr
      exact ⟨(good p p1).1, (good p p1).2, rfl⟩), List.map_map]
    congr 1
    have h3 : (times.zip vals).map Prod.snd = vals.take times.length := by
      have : ∀ (a b : List V), a.length ≤ b.length → (a.zip b).map Prod.snd = b.take a.length := by
        intro a
        induction a with
        | nil => intro b _; simp
        | cons x a ih =>
          intro b hb
          cases b with
          | nil => simp at hb
          | cons y b =>
            simp only [List.zip_cons_cons, List.map_cons, List.length_cons, List.take_succ_cons]
            rw [ih b (by simpa using hb)]
      exact this times vals hlen
    rw [← h3, List.map_map]
    rfl

theorem exportLoop_ub (fmtT fmtV : V → List Char) (vals : List V) : ∀ (ts : List V) (ind : Nat), (vals.length < ind + ts.length ∨ 2 ^ 31 ≤ ind + ts.length) → ind ≤ vals.length → ind < 2 ^ 31 → ts ≠ [] →
    exportLoop fmtT fmtV vals ind ts = .ub
  | [], _, _, _, _, h => absurd rfl h
  | t :: ts, ind, h, hi, hs, _ => by
    simp only [List.length_cons] at h
    simp only [exportLoop]
    cases hv : vals[ind]? with
    | none => rfl
    | some v =>
      have hi' : ind < vals.length := (List.getElem?_eq_some_iff.1 hv).1
      simp only
      by_cases hc : ind + 1 < 2 ^ 31
      · rw [if_pos hc]
        cases ts with
        | nil => simp only [List.length_nil] at h; omega
        | cons t' ts =>
          rw [exportLoop_ub fmtT fmtV vals (t' :: ts) (ind + 1) (by simp only [List.length_cons] at *; omega) (by omega) hc (by simp)]
          rfl
      · rw [if_neg hc]

/-- C75, the rest does not hold: with fewer values than times, memory outside of the vector is read. -/
theorem C75_fewer_values (fmtT fmtV : V → List Char) (times vals : List V) (h : vals.length < times.length) : exportSignal fmtT fmtV times vals = .ub :=
  exportLoop_ub fmtT fmtV vals times 0 (.inl (by omega)) (Nat.zero_le _) (by decide) (fun e => by rw [e] at h; simp at h)

/-- C75, the rest does not hold: the index overflows for signals of 2^31 samples or more. -/
theorem C75_long (fmtT fmtV : V → List Char) (times vals : List V) (h : 2 ^ 31 ≤ times.length) : exportSignal fmtT fmtV times vals = .ub :=
  exportLoop_ub fmtT fmtV vals times 0 (.inr (by omega)) (Nat.zero_le _) (by decide) (fun e => by rw [e] at h; simp at h)

/-! ### The hypotheses can be met -/

namespace Ex75

/-- Numbers written as sequences of ones. -/
def fmt (n : Nat) : List Char := List.replicate (n + 1) '1'
def stof (s : List Char) : Res Nat := if (s.filter Char.isDigit).length = 0 then .throw else .ok ((s.filter Char.isDigit).length - 1)

theorem clean (n : Nat) : Clean (fmt n) := by
  unfold Clean fmt
  simp only [List.mem_replicate]
  refine ⟨fun h => absurd h.2 (by decide), fun h => absurd h.2 (by decide), ?_⟩
  simp

example : ∃ s, exportSignal fmt fmt [0, 1, 2] [5, 3, 4] = .ok s ∧ readFile stof 0 s = .ok [0, 1, 2] ∧ readFile stof 1 s = .ok [5, 3, 4] := by
  have h := C75_export_partial fmt fmt stof [0, 1, 2] [5, 3, 4] (by decide) (by decide) (fun t _ => clean t) (fun t _ => clean t) id id (fun t _ => by simp [stof, fmt, show Char.isDigit '1' = true from by decide])
    (fun t _ => by simp [stof, fmt, show Char.isDigit '1' = true from by decide, show Char.isDigit ' ' = false from by decide])
  simpa using h

example : exportSignal fmt fmt [0, 1, 2] [5, 3] = .ub := C75_fewer_values fmt fmt _ _ (by decide)

end Ex75

end Verif.App
