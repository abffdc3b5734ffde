import Verif.Array.Props3
import Verif.Bytes.Props
/-
Model of the NumPy export (NDVecArray.hxx 405-500), and C49.

Elements are 32-bit patterns of floats, as in `Verif.Bytes`. The format is version 1.0 of
https://numpy.org/doc/stable/reference/generated/numpy.lib.format.html.
-/
namespace Verif.ND
open Verif Verif.Bytes

/-! ### The program -/

/-- The bytes of a string of ASCII characters. -/
def bytesOf (s : String) : List Nat := s.toList.map Char.toNat

/-- Decimal digits, most significant first; `k` bounds their number. -/
def digits : Nat → Nat → List Nat
  | 0, _ => []
  | k + 1, n => if n < 10 then [48 + n] else digits k (n / 10) ++ [48 + n % 10]

/-- `std::to_string(n)`. -/
def toStr (n : Nat) : List Nat := digits (n + 1) n

/-- NDVecArray.hxx 472-479 `shape_string`. -/
def shapeString (vd : Nat) (shape : List Nat) : List Nat :=
  bytesOf "(" ++ shape.flatMap (fun n => toStr n ++ bytesOf ", ") ++ toStr vd ++ bytesOf ")"

/-- NDVecArray.hxx 465-470 `serialize_short_little_endian`; the argument is converted to 16 bits. -/
def shortLE (n : Nat) : List Nat := [n % 65536 % 256, n % 65536 / 256 % 256]

/-- NDVecArray.hxx 441-453: the header with its padding. -/
def npyHeader (vd : Nat) (shape : List Nat) : List Nat :=
  let header := bytesOf "{'descr': '>f4', 'fortran_order': False, 'shape': " ++ shapeString vd shape ++ bytesOf ", }"
  let before := 6 + 1 + 1 + 2 + header.length
  header ++ List.replicate ((before / 64 + 1) * 64 - before - 1) 0x20 ++ bytesOf "\n"

/-- NDVecArray.hxx 427-461 `serialize_to_numpy`; 481-493 `serialize_data` is the block loop of `Bytes.serBlocks` over the whole buffer, with blocks of 10000. -/
def toNumpy (h : Host) (vd : Nat) (hd : Hdr) (buf : List Nat) : Res (List Nat) :=
  (Res.assert hd.owns).bind fun _ =>
  (serBlocks h 10000 buf).bind fun data =>
  .ok (0x93 :: bytesOf "NUMPY" ++ [1, 0] ++ shortLE (npyHeader vd hd.shape).length ++ npyHeader vd hd.shape ++ data)

/-! ### Specification -/

/-- `l` is the decimal notation of `n`: digits, no leading zero. -/
def IsDecimal (l : List Nat) (n : Nat) : Prop :=
  l ≠ [] ∧ (∀ c ∈ l, 48 ≤ c ∧ c ≤ 57) ∧ l.foldl (fun a c => 10 * a + (c - 48)) 0 = n ∧ (1 < l.length → l.head? ≠ some 48)

/-- `l` is the text of a Python tuple (of at least one number) with the given entries, without the parentheses. -/
inductive IsTuple : List Nat → List Nat → Prop
  | one {l : List Nat} {n : Nat} : IsDecimal l n → IsTuple l [n]
  | cons {l t : List Nat} {n : Nat} {ns : List Nat} : IsDecimal l n → IsTuple t ns → IsTuple (l ++ bytesOf ", " ++ t) (n :: ns)

/-- The file is a NumPy file, version 1.0, of an array of big-endian 32-bit floats with the given shape in C order (the last index changes fastest); its element at index
    `i` is `w` for all `i`, `w` with `elem i w`. -/
structure IsNpy (file : List Nat) (shape : List Nat) (elem : List Nat → Nat → Prop) : Prop where
  parts : ∃ header data tuple blanks, file = [0x93, 0x4e, 0x55, 0x4d, 0x50, 0x59, 1, 0, header.length % 256, header.length / 256] ++ header ++ data ∧
    header.length < 65536 ∧ 64 ∣ 10 + header.length ∧
    header = bytesOf "{'descr': '>f4', 'fortran_order': False, 'shape': (" ++ tuple ++ bytesOf "), }" ++ List.replicate blanks 0x20 ++ [0x0a] ∧
    IsTuple tuple shape ∧ data.length = 4 * prod shape ∧
    ∀ i w, ValidInd shape i → elem i w → (data.drop (4 * lin shape i)).take 4 = bigEndian 4 w

/-! ### Proof -/

theorem digits_ok : ∀ (k n : Nat), n < k → IsDecimal (digits k n) n
  | 0, _, h => by omega
  | k + 1, n, h => by
      unfold digits
      by_cases hn : n < 10
      · rw [if_pos hn]
        refine ⟨by simp, ?_, ?_, by simp⟩
        · intro c hc
          have : c = 48 + n := by simpa using hc
          omega
        · simp
      · rw [if_neg hn]
        obtain ⟨h1, h2, h3, h4⟩ := digits_ok k (n / 10) (by omega)
        refine ⟨by simp, ?_, ?_, ?_⟩
        · intro c hc
          rcases List.mem_append.1 hc with hc | hc
          · exact h2 c hc
          · have : c = 48 + n % 10 := by simpa using hc
            omega
        · rw [List.foldl_append, h3]
          simp only [List.foldl_cons, List.foldl_nil]
          omega
        · intro _
          rw [List.head?_append, List.head?_eq_some_head h1, Option.some_or, ← List.head?_eq_some_head h1]
          by_cases hl : 1 < (digits k (n / 10)).length
          · exact h4 hl
          · -- one digit
            obtain ⟨c, hc⟩ : ∃ c, digits k (n / 10) = [c] := by
              match hd : digits k (n / 10), h1, hl with
              | [c], _, _ => exact ⟨c, rfl⟩
              | c :: c' :: t, _, hl => simp at hl
            rw [hc] at h3 ⊢
            simp only [List.foldl_cons, List.foldl_nil] at h3
            intro e
            have : c = 48 := by simpa using e
            omega

theorem toStr_ok (n : Nat) : IsDecimal (toStr n) n := digits_ok _ _ (by omega)

theorem length_digits : ∀ (m k n : Nat), 0 < m → n < 10 ^ m → (digits k n).length ≤ m
  | 0, _, _, hm, _ => by omega
  | m + 1, 0, n, _, _ => by simp [digits]
  | m + 1, k + 1, n, _, h => by
      unfold digits
      split
      · simp
      · rw [List.length_append]
        have hm : 0 < m := by
          rcases Nat.eq_zero_or_pos m with rfl | hm
          · simp at h; omega
          · exact hm
        have := length_digits m k (n / 10) hm (by rw [Nat.pow_succ] at h; omega)
        simp; omega

theorem length_toStr {n : Nat} (h : n < 2 ^ 64) : (toStr n).length ≤ 20 := length_digits 20 _ _ (by omega) (Nat.lt_of_lt_of_le h (by decide))

theorem tuple_ok (vd : Nat) : ∀ shape : List Nat, IsTuple (shape.flatMap (fun n => toStr n ++ bytesOf ", ") ++ toStr vd) (shape ++ [vd])
  | [] => IsTuple.one (toStr_ok vd)
  | n :: shape => by
      rw [List.flatMap_cons, List.append_assoc]
      exact IsTuple.cons (toStr_ok n) (tuple_ok vd shape)

theorem length_tuple (vd : Nat) (hv : vd < 2 ^ 64) : ∀ shape : List Nat, (∀ n ∈ shape, n < 2 ^ 64) →
    (shape.flatMap (fun n => toStr n ++ bytesOf ", ") ++ toStr vd).length ≤ 22 * shape.length + 20
  | [], _ => by simpa using length_toStr hv
  | n :: shape, h => by
      have := length_tuple vd hv shape (fun x hx => h x (by simp [hx]))
      have h1 := length_toStr (h n (by simp))
      have h2 : (bytesOf ", ").length = 2 := rfl
      rw [List.flatMap_cons, List.append_assoc, List.length_append, List.length_append, List.length_cons, h2]
      omega

theorem lin_snoc : ∀ {P i : List Nat} {v k : Nat}, ValidInd P i → lin (P ++ [v]) (i ++ [k]) = v * lin P i + k
  | [], i, v, k, h => by
      rw [validInd_nil_left.1 h]
      simp [lin, prod]
  | p :: ps, i, v, k, h => by
      obtain ⟨i0, is, rfl, h0, h1⟩ := validInd_cons_left.1 h
      show i0 * prod (ps ++ [v]) + lin (ps ++ [v]) (is ++ [k]) = v * (i0 * prod ps + lin ps is) + k
      have hp : ∀ l : List Nat, prod (l ++ [v]) = prod l * v := by
        intro l
        induction l with
        | nil => simp [prod]
        | cons x l ih => simp [prod, ih, Nat.mul_assoc]
      rw [lin_snoc h1, hp, Nat.mul_add, Nat.mul_comm (prod ps) v, ← Nat.mul_assoc, Nat.mul_comm i0 v, Nat.mul_assoc]
      omega

theorem prod_snoc (l : List Nat) (v : Nat) : prod (l ++ [v]) = prod l * v := by
  induction l with
  | nil => simp [prod]
  | cons x l ih => simp [prod, ih, Nat.mul_assoc]

theorem data_at (h : Host) : ∀ (l : List Nat) (m : Nat) (w : Nat), l[m]? = some w → ((l.flatMap (u32 h).ser).drop (4 * m)).take 4 = (u32 h).ser w
  | [], m, w, hw => by simp at hw
  | v :: l, 0, w, hw => by
      have : v = w := by simpa using hw
      subst this
      have hlen : ((u32 h).ser v).length = 4 := length_mem h 4 _
      rw [List.flatMap_cons, Nat.mul_zero, List.drop_zero, List.take_append_of_le_length (by omega), List.take_of_length_le (by omega)]
  | v :: l, m + 1, w, hw => by
      have hlen : ((u32 h).ser v).length = 4 := length_mem h 4 _
      rw [List.flatMap_cons, show 4 * (m + 1) = ((u32 h).ser v).length + 4 * m by rw [hlen]; omega, ← List.drop_drop, List.drop_left]
      exact data_at h l m w (by simpa using hw)

/-- **C49.** For every shape (of up to 2000 axes) and contents, on every host, the exported file is a NumPy file of the array: with the right header and all elements in C
    order; the components of an element are the last axis. -/
theorem C49_numpy (h : Host) (vd : Nat) (shape : List Nat) (buf : List Nat) (hv : vd < 2 ^ 64) (hs : ∀ n ∈ shape, n < 2 ^ 64) (hd : shape.length ≤ 2000)
    (hb : buf.length = volume vd shape) (hw : ∀ w ∈ buf, w < 2 ^ 32) :
    ∃ file, toNumpy h vd (mkHdr vd shape) buf = .ok file ∧
      IsNpy file (shape ++ [vd]) (fun j w => ∃ i k u, j = i ++ [k] ∧ ValidInd shape i ∧ read vd (mkHdr vd shape) buf i = .ok u ∧ u[k]? = some w) := by
  have hser : serBlocks h 10000 buf = .ok (buf.flatMap (u32 h).ser) := serBlocks_eq h 10000 (by omega) buf
  refine ⟨_, by unfold toNumpy; rw [hser]; rfl, ?_⟩
  have hN : bytesOf "NUMPY" = [0x4e, 0x55, 0x4d, 0x50, 0x59] := by decide +kernel
  have hnl : bytesOf "\n" = [0x0a] := by decide +kernel
  have hlen := length_tuple vd hv shape hs
  generalize htup : shape.flatMap (fun n => toStr n ++ bytesOf ", ") ++ toStr vd = tuple at hlen
  -- the header
  obtain ⟨m, hm⟩ : ∃ m, (bytesOf "{'descr': '>f4', 'fortran_order': False, 'shape': " ++ shapeString vd shape ++ bytesOf ", }").length = m := ⟨_, rfl⟩
  have hdict : bytesOf "{'descr': '>f4', 'fortran_order': False, 'shape': " ++ shapeString vd shape ++ bytesOf ", }" =
      bytesOf "{'descr': '>f4', 'fortran_order': False, 'shape': (" ++ tuple ++ bytesOf "), }" := by
    have e1 : bytesOf "{'descr': '>f4', 'fortran_order': False, 'shape': (" = bytesOf "{'descr': '>f4', 'fortran_order': False, 'shape': " ++ bytesOf "(" := by decide +kernel
    have e2 : bytesOf "), }" = bytesOf ")" ++ bytesOf ", }" := by decide +kernel
    unfold shapeString
    rw [e1, e2, ← htup]
    simp only [List.append_assoc]
  have hml : m = 55 + tuple.length := by
    rw [← hm, hdict, List.length_append, List.length_append]
    have e1 : (bytesOf "{'descr': '>f4', 'fortran_order': False, 'shape': (").length = 51 := by decide +kernel
    have e2 : (bytesOf "), }").length = 4 := by decide +kernel
    omega
  have hhdr : npyHeader vd shape = bytesOf "{'descr': '>f4', 'fortran_order': False, 'shape': (" ++ tuple ++ bytesOf "), }" ++
      List.replicate (((10 + m) / 64 + 1) * 64 - (10 + m) - 1) 0x20 ++ [0x0a] := by
    rw [← hdict, ← hnl, ← hm]
    rfl
  have hhl : 10 + (npyHeader vd shape).length = ((10 + m) / 64 + 1) * 64 := by
    rw [hhdr, ← hdict, List.length_append, List.length_append, hm, List.length_replicate]
    simp only [List.length_cons, List.length_nil]
    omega
  have hlt : (npyHeader vd shape).length < 65536 := by omega
  refine ⟨npyHeader vd shape, buf.flatMap (u32 h).ser, tuple, _, ?_, hlt, ⟨(10 + m) / 64 + 1, by rw [hhl, Nat.mul_comm]⟩, hhdr, by rw [← htup]; exact tuple_ok vd shape, ?_, ?_⟩
  · have hsl : shortLE (npyHeader vd shape).length = [(npyHeader vd shape).length % 256, (npyHeader vd shape).length / 256] := by
      unfold shortLE
      rw [Nat.mod_eq_of_lt hlt, Nat.mod_eq_of_lt (a := (npyHeader vd shape).length / 256) (by omega)]
    rw [hN]
    show _ :: _ ++ _ ++ shortLE (npyHeader vd shape).length ++ npyHeader vd shape ++ _ = _
    rw [hsl]
    rfl
  · rw [length_flatMap_u32, hb, volume_eq, prod_snoc]
  · rintro j w _ ⟨i, k, u, rfl, hi, hr, hk⟩
    rw [read_own hb hi] at hr
    have hu : u = (buf.drop (vd * lin shape i)).take vd := (Res.ok.inj hr).symm
    rw [hu, List.getElem?_take] at hk
    split at hk
    · rw [List.getElem?_drop] at hk
      rw [lin_snoc hi, data_at h buf _ w hk]
      exact (C10_u32 h w (hw w (List.mem_of_getElem? hk))).1
    · cases hk

namespace Ex49

/-- A 2 × 2 array with one component. -/
example : toNumpy .little 1 (mkHdr 1 [2, 2]) [1, 2, 3, 0x3f800000] = .ok (
    [0x93, 0x4e, 0x55, 0x4d, 0x50, 0x59, 1, 0, 118, 0] ++ bytesOf "{'descr': '>f4', 'fortran_order': False, 'shape': (2, 2, 1), }" ++ List.replicate 55 0x20 ++ [0x0a] ++
    [0, 0, 0, 1, 0, 0, 0, 2, 0, 0, 0, 3, 0x3f, 0x80, 0, 0]) := by
  unfold toNumpy
  rw [serBlocks_eq _ _ (by omega)]
  decide +kernel

/-- A header whose dictionary is just as long that there is no room for a blank: only the line feed is added. -/
example : (npyHeader 1 [1000, 1000, 1]).length = 118 ∧ (npyHeader 1 [1000000000000000000, 1000000000000000000, 10000000000000000]).length = 118 ∧
    (npyHeader 1 [1000000000000000000, 1000000000000000000, 100000000000000000]).length = 182 := by decide +kernel

end Ex49

end Verif.ND
