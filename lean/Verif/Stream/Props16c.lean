import Verif.Stream.Props16b
/-!
C16: which appends along any axis are accepted.
-/
namespace Verif.Stream
open Verif Verif.ND Verif.Bytes Verif.NullSup

theorem permitsEqual_true : ∀ {a c : List Nat} {b : Bool}, permitsEqual a c = .ok b →
    (∀ d < a.length, a.getD d 0 ≤ c.getD d 0 ∨ c.getD d 0 ∣ a.getD d 0) → b = true
  | [], c, b, h, _ => by cases c <;> simp [permitsEqual] at h <;> exact h
  | _ :: _, [], b, h, _ => by simp [permitsEqual] at h; exact h
  | a :: as, c :: cs, b, h, hf => by
      have ih' := fun h => permitsEqual_true (a := as) (c := cs) (b := b) h fun d hd => by
        simpa using hf (d + 1) (by simpa using hd)
      have h0 := hf 0 (by simp)
      simp only [List.getD_cons_zero] at h0
      unfold permitsEqual at h
      by_cases hlt : c < a
      · rw [if_pos hlt] at h
        by_cases hz : c = 0
        · rw [if_pos hz] at h; cases h
        rw [if_neg hz, if_neg] at h
        · exact ih' h
        · have : c ∣ a := by omega
          simp [Nat.mod_eq_zero_of_dvd this]
      · rw [if_neg hlt] at h; exact ih' h

/-- The metadata of a file record whether the last piece written has equally sized serialization chunks. -/
theorem hist_at_access {hst : Host} {vd a : Nat} {B chunk : List Nat} {l : List Piece} {file : List Nat} (ha : a < B.length)
    (hB : ∀ d < a, B.getD d 0 ≤ chunk.getD d 0) (hh : HistAt hst vd a B chunk l file) (hc : Small chunk)
    (hsmall : total a l < 2 ^ 64) (hsafe : Safe (B.map fun _ => 0) (B.set a (total a l)) chunk) :
    ∃ pre s0 b rest, l = pre ++ [s0] ∧ permitsEqual s0.h.shape chunk = .ok b ∧
      file = (sMeta hst B.length).ser ⟨chunk, B.set a (total a l), accessOf b⟩ ++ rest := by
  cases hh with
  | @init s file hok hser =>
    have hext : total a [s] = s.along a := by simp [total]
    rw [hext] at hsafe ⊢
    have hsafe' : Safe (s.h.shape.map fun _ => 0) s.h.shape chunk := by rw [hok.zeros, hok.shape]; exact hsafe
    obtain ⟨b, hb⟩ := permitsEqual_ok hsafe'
    unfold serialize at hser
    by_cases hw : wellFormed chunk = false
    · rw [if_pos hw] at hser; cases hser
    rw [if_neg hw, hb] at hser
    simp only [Res.ok_bind] at hser
    obtain ⟨body, hbody, hser⟩ := Res.bind_eq_ok.1 hser
    refine ⟨[], s, b, body, rfl, hb, ?_⟩
    rw [← Res.ok.inj hser, hok.len, ← hok.shape]
  | @append l file0 s _ hh hdvd hok happ =>
    have hex : total a (l ++ [s]) = total a l + s.along a := by rw [total_append]; simp [total]
    rw [hex] at hsmall hsafe ⊢
    have hcl : chunk.length = B.length := (safe_at_len hsafe).symm
    have hs1 := safe_mono_at (n := total a l) (by omega) hsafe
    have hs2 := safe_mono_at (n := s.along a) (by omega) hsafe
    obtain ⟨_, b0, f, bs, inv⟩ := hist_at_inv ha hB hh hc (by omega) hs1
    have hsafe' : Safe (s.h.shape.map fun _ => 0) s.h.shape chunk := by rw [hok.zeros, hok.shape]; exact hs2
    obtain ⟨b, hb⟩ := permitsEqual_ok hsafe'
    unfold appendSlice at happ
    rw [inv.file, hok.len, sMeta_rt hst B.length ⟨chunk, B.set a (total a l), accessOf b0⟩ hcl (by simp) hc
      (small_at hok ha (by omega)) (show accessOf b0 < 2 ^ 64 by cases b0 <;> decide)] at happ
    simp only [Res.ok_bind] at happ
    by_cases hacc : accessOf b0 = 1
    · rw [if_pos hacc] at happ; cases happ
    rw [if_neg hacc] at happ
    simp only [ha, decide_true, Res.assert_true, Res.ok_bind] at happ
    by_cases hcat : shapeAllowsConcat (B.set a (total a l)) s.h.shape a = false
    · rw [if_pos hcat] at happ; cases happ
    rw [if_neg hcat, hb] at happ
    simp only [Res.ok_bind] at happ
    obtain ⟨body, hbody, hfile⟩ := Res.bind_eq_ok.1 happ
    have hshape' : (B.set a (total a l)).set a (wadd ((B.set a (total a l)).getD a 0) (s.h.shape.getD a 0)) = B.set a (total a l + s.along a) := by
      rw [List.set_set, getD_set ha, if_pos rfl]
      rw [wadd_eq (by unfold Piece.along at hsmall; have hU : U64 = 2 ^ 64 := rfl; omega)]
      rfl
    rw [hshape', List.append_assoc] at hfile
    exact ⟨l, s, b, _, rfl, hb, (Res.ok.inj hfile).symm⟩

/-- **C16, along any axis**  When an append is accepted: if along every axis the serialization chunk divides the extent of the last
    piece written (or is at least as long), the next piece with the same extents along the other axes is appended without an error. -/
theorem C16_append_along_axis_accepted (hst : Host) (vd a : Nat) (B chunk : List Nat) (ha : a < B.length) (hc : Small chunk)
    (hB : ∀ d < a, B.getD d 0 ≤ chunk.getD d 0) (l : List Piece) (s0 : Piece)
    (file : List Nat) (hh : HistAt hst vd a B chunk (l ++ [s0]) file) (hsmall : total a (l ++ [s0]) < 2 ^ 64)
    (hsafe : Safe (B.map fun _ => 0) (B.set a (total a (l ++ [s0]))) chunk)
    (hfit : ∀ d < B.length, s0.h.shape.getD d 0 ≤ chunk.getD d 0 ∨ chunk.getD d 0 ∣ s0.h.shape.getD d 0)
    (s : Piece) (hs : s.OkAt vd a B chunk) (hm : s.mode ≠ .automatic)
    (hss : Safe (s.h.shape.map fun _ => 0) s.h.shape chunk) :
    ∃ file', appendSlice hst vd file s.h s.buf a s.mode = .ok file' := by
  obtain ⟨pre, s1, b, rest, hl, hb, hfile⟩ := hist_at_access ha hB hh hc hsmall hsafe
  obtain ⟨rfl, h1⟩ := List.append_inj' hl rfl
  simp only [List.cons.injEq, and_true] at h1
  subst h1
  have hlen0 := (hist_at_pieces hh s0 (by simp)).len
  have hb' := permitsEqual_true hb (fun d hd => hfit d (by omega))
  subst hb'
  have hcl : chunk.length = B.length := (safe_at_len hsafe).symm
  obtain ⟨b2, hb2⟩ := permitsEqual_ok hss
  have hcat : shapeAllowsConcat (B.set a (total a (l ++ [s0]))) s.h.shape a = true := by
    simp only [shapeAllowsConcat, List.all_eq_true, List.mem_range, Bool.or_eq_true, beq_iff_eq]
    intro d hd
    by_cases e : d = a
    · exact Or.inl e
    · right
      rw [hs.shape, getD_set ha, getD_set ha, if_neg e, if_neg e]
  unfold appendSlice
  rw [hfile, hs.len, sMeta_rt hst B.length ⟨chunk, B.set a (total a (l ++ [s0])), accessOf true⟩ hcl (by simp) hc
    (small_at hs ha hsmall) (show accessOf true < 2 ^ 64 by decide)]
  simp only [Res.ok_bind]
  rw [if_neg (by decide)]
  simp only [ha, decide_true, Res.assert_true, Res.ok_bind]
  rw [if_neg (by rw [hcat]; simp), hb2]
  simp only [Res.ok_bind]
  rw [serializeChunks_eq hst hs.given chunk hss s.mode hm]
  exact ⟨_, rfl⟩

end Verif.Stream
