import Verif.Base
import Mathlib.Data.List.Basic
/-
Model of the reader for tables in text files that the application `dipole` uses (/repo/tests/test_utils/CSVReader.hxx). The conversion of the text of one field to a number (`std::stof`) is a parameter.
-/
namespace Verif.App
open Verif

variable {V : Type}

/-! ### The program -/

/-- `std::getline(stream, line, delim)` for a stream with the remaining characters: the line, and what remains after the delimiter (`none`: it was not found, the end of the stream is reached). -/
def cutAt (delim : Char) : List Char → List Char × Option (List Char)
  | [] => ([], none)
  | c :: s => if c = delim then ([], some s) else (c :: (cutAt delim s).1, (cutAt delim s).2)

/-- CSVReader.hxx 49-54: the loop over the fields of a line. At the end of the line the stream is no longer `good`; if the line ends with a comma there is one more, empty, field. -/
def parseFields (stof : List Char → Res V) : Nat → List Char → Res (List V)
  | 0, _ => .diverge
  | fuel + 1, s => (stof (cutAt ',' s).1).bind fun v =>
    match (cutAt ',' s).2 with
    | none => .ok [v]
    | some rest => (parseFields stof fuel rest).bind fun l => .ok (v :: l)

/-- CSVReader.hxx 37-55 `CSVRow::parse_row`, for the line that was read. -/
def parseRow (stof : List Char → Res V) (line : List Char) : Res (List V) := if line = [] then .ok [] else parseFields stof (line.length + 1) line

/-- CSVReader.hxx 66-79 `read_column`, from the begin of the file on. `row[col_ind]` is undefined outside of the row. If no characters are left, or the end has been reached before, `getline` fails and the loop ends. -/
def readColumn (stof : List Char → Res V) (col : Nat) : Nat → List Char → Res (List V)
  | 0, _ => .diverge
  | _ + 1, [] => .ok []
  | fuel + 1, c :: s => (parseRow stof (cutAt '\n' (c :: s)).1).bind fun row =>
    match row[col]? with
    | none => .ub
    | some v => match (cutAt '\n' (c :: s)).2 with
      | none => .ok [v]
      | some rest => (readColumn stof col fuel rest).bind fun l => .ok (v :: l)

/-- The whole file. -/
def readFile (stof : List Char → Res V) (col : Nat) (s : List Char) : Res (List V) := readColumn stof col (s.length + 1) s

/-! ### Specification -/

/-- The text of a row: its fields with commas in between. -/
def rowText : List (List Char) → List Char
  | [] => []
  | [f] => f
  | f :: fs => f ++ ',' :: rowText fs

/-- The text of a file: every row ends with a line break, except that it may be missing after the last one (`final = false`). -/
def fileText (final : Bool) : List (List (List Char)) → List Char
  | [] => []
  | [r] => rowText r ++ if final then ['\n'] else []
  | r :: rs => rowText r ++ '\n' :: fileText final rs

/-- The row may occur in a file: its fields contain no commas and line breaks, and the line is not empty. -/
def GoodRow (r : List (List Char)) : Prop := (∀ f ∈ r, ',' ∉ f ∧ '\n' ∉ f) ∧ rowText r ≠ []

/-- The row has the numbers `vs`. -/
def Reads (stof : List Char → Res V) (r : List (List Char)) (vs : List V) : Prop := r.map stof = vs.map .ok

/-! ### Proof -/

theorem cutAt_here (d : Char) : ∀ (a s : List Char), d ∉ a → cutAt d (a ++ d :: s) = (a, some s)
  | [], s, _ => by simp [cutAt]
  | c :: a, s, h => by
    have hc : ¬ c = d := fun e => h (by simp [e])
    have := cutAt_here d a s fun e => h (by simp [e])
    simp [cutAt, hc, this]

theorem cutAt_end (d : Char) : ∀ a : List Char, d ∉ a → cutAt d a = (a, none)
  | [], _ => rfl
  | c :: a, h => by
    have hc : ¬ c = d := fun e => h (by simp [e])
    have := cutAt_end d a fun e => h (by simp [e])
    simp [cutAt, hc, this]

theorem rowText_length : ∀ r : List (List Char), r.length ≤ (rowText r).length + 1
  | [] => by simp
  | [f] => by simp
  | f :: g :: fs => by
    have := rowText_length (g :: fs)
    simp only [rowText, List.length_append, List.length_cons] at *
    omega

theorem parseFields_ok (stof : List Char → Res V) : ∀ (fuel : Nat) (r : List (List Char)) (vs : List V), r ≠ [] → (∀ f ∈ r, ',' ∉ f) → Reads stof r vs → r.length ≤ fuel → parseFields stof fuel (rowText r) = .ok vs
  | 0, [], _, h, _, _, _ => absurd rfl h
  | _ + 1, [], _, h, _, _, _ => absurd rfl h
  | 0, _ :: _, _, _, _, _, h => by simp at h
  | fuel + 1, [f], vs, _, hc, hr, _ => by
    obtain ⟨v, rfl⟩ : ∃ v, vs = [v] := by
      have := congrArg List.length hr
      simp at this
      exact List.length_eq_one_iff.1 this.symm
    have hv : stof f = .ok v := by simpa [Reads] using hr
    simp only [parseFields, rowText]
    rw [cutAt_end ',' f (hc f (by simp))]
    simp [hv, Res.bind]
  | fuel + 1, f :: g :: fs, vs, _, hc, hr, hl => by
    obtain ⟨v, ws, rfl⟩ : ∃ v ws, vs = v :: ws := by
      have := congrArg List.length hr
      simp at this
      cases vs with
      | nil => simp at this
      | cons v ws => exact ⟨v, ws, rfl⟩
    have hr' : stof f = .ok v ∧ Reads stof (g :: fs) ws := by simpa [Reads] using hr
    have ih := parseFields_ok stof fuel (g :: fs) ws (by simp) (fun k hk => hc k (by simp at hk ⊢; tauto)) hr'.2 (by simpa using hl)
    simp only [parseFields]
    rw [show rowText (f :: g :: fs) = f ++ ',' :: rowText (g :: fs) from rfl, cutAt_here ',' f _ (hc f (by simp))]
    simp [hr'.1, ih, Res.bind]

theorem parseRow_ok {stof : List Char → Res V} {r : List (List Char)} {vs : List V} (h : GoodRow r) (hr : Reads stof r vs) : parseRow stof (rowText r) = .ok vs := by
  unfold parseRow
  rw [if_neg h.2]
  exact parseFields_ok stof _ r vs (fun e => h.2 (by rw [e]; rfl)) (fun f hf => (h.1 f hf).1) hr (rowText_length r)

theorem rowText_line : ∀ {r : List (List Char)}, (∀ f ∈ r, '\n' ∉ f) → '\n' ∉ rowText r
  | [], _ => by simp [rowText]
  | [f], h => by simpa [rowText] using h f (by simp)
  | f :: g :: fs, h => by
    have := rowText_line (r := g :: fs) fun k hk => h k (by simp at hk ⊢; tauto)
    have h1 := h f (by simp)
    simp only [rowText, List.mem_append, List.mem_cons, not_or]
    exact ⟨h1, by decide, this⟩

/-- One line, that is not the last one. -/
theorem readColumn_line {stof : List Char → Res V} {col fuel : Nat} {r : List (List Char)} {vs : List V} {v : V} {s : List Char} (h : GoodRow r) (hr : Reads stof r vs) (hv : vs[col]? = some v) :
    readColumn stof col (fuel + 1) (rowText r ++ '\n' :: s) = (readColumn stof col fuel s).bind fun l => .ok (v :: l) := by
  obtain ⟨c, t, e⟩ : ∃ c t, rowText r ++ '\n' :: s = c :: t := by
    cases he : rowText r ++ '\n' :: s with
    | nil => simp at he
    | cons c t => exact ⟨c, t, rfl⟩
  have hc := cutAt_here '\n' (rowText r) s (rowText_line fun f hf => (h.1 f hf).2)
  rw [e] at hc ⊢
  simp only [readColumn, hc, parseRow_ok h hr, Res.ok_bind, hv]

/-- The last line, without a line break. -/
theorem readColumn_last {stof : List Char → Res V} {col fuel : Nat} {r : List (List Char)} {vs : List V} {v : V} (h : GoodRow r) (hr : Reads stof r vs) (hv : vs[col]? = some v) :
    readColumn stof col (fuel + 1) (rowText r) = .ok [v] := by
  obtain ⟨c, t, e⟩ : ∃ c t, rowText r = c :: t := by
    cases he : rowText r with
    | nil => exact absurd he h.2
    | cons c t => exact ⟨c, t, rfl⟩
  have hc := cutAt_end '\n' (rowText r) (rowText_line fun f hf => (h.1 f hf).2)
  have hp := parseRow_ok h hr
  rw [e] at hc hp ⊢
  simp only [readColumn, hc, hp, Res.ok_bind, hv]

theorem fileText_length (final : Bool) : ∀ (rs : List (List (List Char))), (∀ r ∈ rs, rowText r ≠ []) → rs.length ≤ (fileText final rs).length
  | [], _ => by simp
  | [r], h => by
    have := List.length_pos_iff.2 (h r (by simp))
    simp only [fileText, List.length_append, List.length_singleton]
    omega
  | r :: r' :: rs, h => by
    have := fileText_length final (r' :: rs) fun q hq => h q (by simp at hq ⊢; tauto)
    simp only [fileText, List.length_append, List.length_cons] at *
    omega

theorem column_ok (stof : List Char → Res V) (col : Nat) (final : Bool) : ∀ (rows : List (List (List Char) × List V × V)) (fuel : Nat), (∀ r ∈ rows, GoodRow r.1 ∧ Reads stof r.1 r.2.1 ∧ r.2.1[col]? = some r.2.2) →
    rows.length < fuel → readColumn stof col fuel (fileText final (rows.map Prod.fst)) = .ok (rows.map fun r => r.2.2)
  | [], 0, _, h => by simp at h
  | [], _ + 1, _, _ => rfl
  | _ :: _, 0, _, h => by simp at h
  | [r], fuel + 1, h, hf => by
    obtain ⟨h1, h2, h3⟩ := h r (by simp)
    cases final with
    | false =>
      simp only [List.map_cons, List.map_nil, fileText, Bool.false_eq_true, if_false, List.append_nil]
      exact readColumn_last h1 h2 h3
    | true =>
      simp only [List.map_cons, List.map_nil, fileText, if_true]
      rw [readColumn_line h1 h2 h3]
      obtain ⟨f, rfl⟩ : ∃ f, fuel = f + 1 := ⟨fuel - 1, by simp at hf; omega⟩
      rfl
  | r :: r' :: rs, fuel + 1, h, hf => by
    obtain ⟨h1, h2, h3⟩ := h r (by simp)
    have ih := column_ok stof col final (r' :: rs) fuel (fun q hq => h q (by simp at hq ⊢; tauto)) (by simpa using hf)
    rw [show fileText final ((r :: r' :: rs).map Prod.fst) = rowText r.1 ++ '\n' :: fileText final ((r' :: rs).map Prod.fst) from rfl, readColumn_line h1 h2 h3, ih]
    rfl

/-! ### C73 -/

/-- **C73**: from a file with any number of rows, each with any number of fields, with or without a line break at the end, the reader takes the number number `col` of each row, in order.
    (Missing: files in which a row has fewer fields or a line is empty are not rejected, see `C73_empty_line`, `C73_short_row`.) -/
theorem C73_column_partial (stof : List Char → Res V) (col : Nat) (final : Bool) (rows : List (List (List Char) × List V × V)) (h : ∀ r ∈ rows, GoodRow r.1 ∧ Reads stof r.1 r.2.1 ∧ r.2.1[col]? = some r.2.2) :
    readFile stof col (fileText final (rows.map Prod.fst)) = .ok (rows.map fun r => r.2.2) := by
  refine column_ok stof col final rows _ h ?_
  have := fileText_length final (rows.map Prod.fst) fun r hr => by
    obtain ⟨q, q1, rfl⟩ := List.mem_map.1 hr
    exact (h q q1).1.2
  rw [List.length_map] at this
  omega

/-- Reading some good rows that are followed by something else. -/
theorem readColumn_prefix (stof : List Char → Res V) (col : Nat) (s : List Char) : ∀ (rows : List (List (List Char) × List V × V)) (fuel : Nat),
    (∀ r ∈ rows, GoodRow r.1 ∧ Reads stof r.1 r.2.1 ∧ r.2.1[col]? = some r.2.2) →
    readColumn stof col (rows.length + fuel) ((rows.map fun r => rowText r.1 ++ ['\n']).flatten ++ s) = (readColumn stof col fuel s).bind fun l => .ok (rows.map (fun r => r.2.2) ++ l)
  | [], fuel, _ => by
    simp only [List.length_nil, Nat.zero_add, List.map_nil, List.flatten_nil, List.nil_append]
    cases readColumn stof col fuel s <;> rfl
  | r :: rs, fuel, h => by
    obtain ⟨h1, h2, h3⟩ := h r (by simp)
    have ih := readColumn_prefix stof col s rs fuel fun q hq => h q (by simp [hq])
    have e : ((r :: rs).map fun r => rowText r.1 ++ ['\n']).flatten ++ s = rowText r.1 ++ '\n' :: ((rs.map fun r => rowText r.1 ++ ['\n']).flatten ++ s) := by simp
    rw [e, show (r :: rs).length + fuel = (rs.length + fuel) + 1 from by simp; omega, readColumn_line h1 h2 h3, ih]
    cases readColumn stof col fuel s <;> rfl

/-- C73, the rest does not hold: an empty line after any rows, for example at the end of the file, is undefined behaviour. -/
theorem C73_empty_line (stof : List Char → Res V) (col : Nat) (rows : List (List (List Char) × List V × V)) (h : ∀ r ∈ rows, GoodRow r.1 ∧ Reads stof r.1 r.2.1 ∧ r.2.1[col]? = some r.2.2) (rest : List Char) :
    readFile stof col ((rows.map fun r => rowText r.1 ++ ['\n']).flatten ++ '\n' :: rest) = .ub := by
  have hl : rows.length ≤ ((rows.map fun r => rowText r.1 ++ ['\n']).flatten).length := by
    clear h
    induction rows with
    | nil => simp
    | cons r rs ih => simp only [List.map_cons, List.flatten_cons, List.length_append, List.length_cons, List.length_nil]; omega
  unfold readFile
  obtain ⟨f, hf⟩ : ∃ f, ((rows.map fun r => rowText r.1 ++ ['\n']).flatten ++ '\n' :: rest).length + 1 = rows.length + (f + 1) := by
    refine ⟨((rows.map fun r => rowText r.1 ++ ['\n']).flatten ++ '\n' :: rest).length - rows.length, ?_⟩
    rw [List.length_append]
    omega
  rw [hf, readColumn_prefix stof col _ rows _ h]
  rfl

/-- C73, the rest does not hold: a row without the column, after any rows, is undefined behaviour. -/
theorem C73_short_row (stof : List Char → Res V) (col : Nat) (rows : List (List (List Char) × List V × V)) (h : ∀ r ∈ rows, GoodRow r.1 ∧ Reads stof r.1 r.2.1 ∧ r.2.1[col]? = some r.2.2) (r : List (List Char))
    (vs : List V) (hr : GoodRow r) (hv : Reads stof r vs) (hc : vs.length ≤ col) (rest : List Char) :
    readFile stof col ((rows.map fun r => rowText r.1 ++ ['\n']).flatten ++ (rowText r ++ '\n' :: rest)) = .ub := by
  have hl : rows.length ≤ ((rows.map fun r => rowText r.1 ++ ['\n']).flatten).length := by
    clear h
    induction rows with
    | nil => simp
    | cons r rs ih => simp only [List.map_cons, List.flatten_cons, List.length_append, List.length_cons, List.length_nil]; omega
  unfold readFile
  obtain ⟨f, hf⟩ : ∃ f, ((rows.map fun r => rowText r.1 ++ ['\n']).flatten ++ (rowText r ++ '\n' :: rest)).length + 1 = rows.length + (f + 1) := by
    refine ⟨((rows.map fun r => rowText r.1 ++ ['\n']).flatten ++ (rowText r ++ '\n' :: rest)).length - rows.length, ?_⟩
    rw [List.length_append]
    omega
  rw [hf, readColumn_prefix stof col _ rows _ h]
  obtain ⟨c, t, e⟩ : ∃ c t, rowText r ++ '\n' :: rest = c :: t := by
    cases he : rowText r ++ '\n' :: rest with
    | nil => simp at he
    | cons c t => exact ⟨c, t, rfl⟩
  have hcut := cutAt_here '\n' (rowText r) rest (rowText_line fun f hf => (hr.1 f hf).2)
  rw [e] at hcut ⊢
  have : vs[col]? = none := List.getElem?_eq_none hc
  simp only [readColumn, hcut, parseRow_ok hr hv, Res.ok_bind, this]
  rfl

/-- **C73**: a field that is not a number, in whatever column of a row after any rows, is reported by an exception. -/
theorem C73_not_a_number (stof : List Char → Res V) (col : Nat) (rows : List (List (List Char) × List V × V)) (h : ∀ r ∈ rows, GoodRow r.1 ∧ Reads stof r.1 r.2.1 ∧ r.2.1[col]? = some r.2.2) (a : List (List Char))
    (va : List V) (f : List Char) (tail rest : List Char) (ha : ∀ g ∈ a, ',' ∉ g ∧ '\n' ∉ g) (hv : Reads stof a va) (hf : ',' ∉ f ∧ '\n' ∉ f) (ht : '\n' ∉ tail) (htc : tail = [] ∨ ∃ u, tail = ',' :: u)
    (hs : stof f = .throw) (hne : (a.map fun g => g ++ [',']).flatten ++ (f ++ tail) ≠ []) :
    readFile stof col ((rows.map fun r => rowText r.1 ++ ['\n']).flatten ++ ((a.map fun g => g ++ [',']).flatten ++ (f ++ tail) ++ '\n' :: rest)) = .throw := by
  have hl : rows.length ≤ ((rows.map fun r => rowText r.1 ++ ['\n']).flatten).length := by
    clear h
    induction rows with
    | nil => simp
    | cons r rs ih => simp only [List.map_cons, List.flatten_cons, List.length_append, List.length_cons, List.length_nil]; omega
  -- the line
  have hline : ∀ (a : List (List Char)) (va : List V) (fuel : Nat), (∀ g ∈ a, ',' ∉ g ∧ '\n' ∉ g) → Reads stof a va → a.length < fuel → parseFields stof fuel ((a.map fun g => g ++ [',']).flatten ++ (f ++ tail)) = .throw := by
    intro a
    induction a with
    | nil =>
      intro va fuel _ _ hfu
      obtain ⟨n, rfl⟩ : ∃ n, fuel = n + 1 := ⟨fuel - 1, by simp at hfu; omega⟩
      simp only [List.map_nil, List.flatten_nil, List.nil_append, parseFields]
      rcases htc with rfl | ⟨u, rfl⟩
      · rw [List.append_nil, cutAt_end ',' f hf.1, hs]; rfl
      · rw [cutAt_here ',' f u hf.1, hs]; rfl
    | cons g a ih =>
      intro va fuel hg hr hfu
      obtain ⟨v, ws, rfl⟩ : ∃ v ws, va = v :: ws := by
        have := congrArg List.length hr
        simp at this
        cases va with
        | nil => simp at this
        | cons v ws => exact ⟨v, ws, rfl⟩
      have hr' : stof g = .ok v ∧ Reads stof a ws := by simpa [Reads] using hr
      obtain ⟨n, rfl⟩ : ∃ n, fuel = n + 1 := ⟨fuel - 1, by simp at hfu; omega⟩
      have e : ((g :: a).map fun g => g ++ [',']).flatten ++ (f ++ tail) = g ++ ',' :: ((a.map fun g => g ++ [',']).flatten ++ (f ++ tail)) := by simp
      rw [e]
      simp only [parseFields]
      rw [cutAt_here ',' g _ (hg g (by simp)).1, hr'.1]
      simp only [Res.ok_bind]
      rw [ih ws n (fun k hk => hg k (by simp [hk])) hr'.2 (by simpa using hfu)]
      rfl
  have hal : a.length ≤ ((a.map fun g => g ++ [',']).flatten).length := by
    clear ha hv hne
    induction a with
    | nil => simp
    | cons r rs ih => simp only [List.map_cons, List.flatten_cons, List.length_append, List.length_cons, List.length_nil]; omega
  have hn : '\n' ∉ (a.map fun g => g ++ [',']).flatten ++ (f ++ tail) := by
    simp only [List.mem_append, not_or]
    refine ⟨?_, hf.2, ht⟩
    intro hm
    obtain ⟨x, x1, x2⟩ := List.mem_flatten.1 hm
    obtain ⟨g, g1, rfl⟩ := List.mem_map.1 x1
    simp at x2
    exact (ha g g1).2 x2
  generalize hL : (a.map fun g => g ++ [',']).flatten ++ (f ++ tail) = line at *
  have hparse : parseRow stof line = .throw := by
    unfold parseRow
    rw [if_neg hne, ← hL]
    apply hline a va _ ha hv
    rw [List.length_append]
    omega
  unfold readFile
  obtain ⟨n, hf⟩ : ∃ n, ((rows.map fun r => rowText r.1 ++ ['\n']).flatten ++ (line ++ '\n' :: rest)).length + 1 = rows.length + (n + 1) := by
    refine ⟨((rows.map fun r => rowText r.1 ++ ['\n']).flatten ++ (line ++ '\n' :: rest)).length - rows.length, ?_⟩
    rw [List.length_append]
    omega
  rw [hf, readColumn_prefix stof col _ rows _ h]
  obtain ⟨c, t, e⟩ : ∃ c t, line ++ '\n' :: rest = c :: t := by
    cases he : line ++ '\n' :: rest with
    | nil => simp at he
    | cons c t => exact ⟨c, t, rfl⟩
  have hcut := cutAt_here '\n' line rest hn
  rw [e] at hcut ⊢
  simp only [readColumn, hcut, hparse]
  rfl

/-! ### The hypotheses can be met -/

namespace Ex73

/-- A conversion: the number of digits; no digits are an error. -/
def stof (s : List Char) : Res Nat := if (s.filter Char.isDigit).length = 0 then .throw else .ok (s.filter Char.isDigit).length

def rows : List (List (List Char) × List Nat × Nat) := [(["12".toList, "3".toList], [2, 1], 1), (["1".toList, " 300".toList], [1, 3], 3)]

theorem good : ∀ r ∈ rows, GoodRow r.1 ∧ Reads stof r.1 r.2.1 ∧ r.2.1[1]? = some r.2.2 := by
  intro r hr
  simp only [rows, List.mem_cons, List.not_mem_nil, or_false] at hr
  rcases hr with rfl | rfl
  · exact ⟨⟨by decide, by decide⟩, rfl, rfl⟩
  · exact ⟨⟨by decide, by decide⟩, rfl, rfl⟩

example : readFile stof 1 "12,3\n1, 300".toList = .ok [1, 3] := C73_column_partial stof 1 false rows good

example : readFile stof 1 "12,3\n1, 300\n".toList = .ok [1, 3] := C73_column_partial stof 1 true rows good

example : readFile stof 1 "12,3\n1, 300\n\n".toList = .ub := C73_empty_line stof 1 rows good []

example : readFile stof 1 "12,3\n1, 300\n7\n".toList = .ub := C73_short_row stof 1 rows good ["7".toList] [1] ⟨by decide, by decide⟩ rfl (by decide) []

example : readFile stof 1 "12,3\n1, 300\n7,8,x\n5,5".toList = .throw :=
  C73_not_a_number stof 1 rows good ["7".toList, "8".toList] [1, 1] "x".toList [] "5,5".toList (by decide) rfl (by decide) (by decide) (.inl rfl) rfl (by decide)

end Ex73

end Verif.App
