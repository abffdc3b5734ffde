import Verif.Tree.PoolProps
/-
The way the R*-tree uses its memory pools: it only asks for new slots, reads and writes slots it was given, iterates and resets.
Such a pool behaves like a growing list: slots are handed out as 0, 1, 2, ... and iteration follows that order. This justifies the
representation of the pools in Verif/Tree/Model.lean.
-/
namespace Verif.Pool
open Verif Verif.DLL

variable {T : Type}

/-- The pool `p` holds the list `l`: iteration visits the slots 0, 1, ... and finds the elements of `l`. -/
structure Holds (p : Pool T) (l : List T) : Prop where
  elems : elements p = .ok (l.zipIdx.map fun x => (x.2, x.1))
  inv : ∃ n, l.length + n = p.size ∧ Inv p (List.range' l.length n) (List.range l.length)

theorem holds_of_inv {p : Pool T} {l : List T} {n : Nat} (hn : l.length + n = p.size) (h : Inv p (List.range' l.length n) (List.range l.length))
    (hd : ∀ i (hi : i < l.length), p.data i = l[i]) : Holds p l := by
  refine ⟨?_, n, hn, h⟩
  rw [elements_eq h, abs]
  congr 1
  apply List.ext_getElem
  · simp
  · intro i h1 h2
    have hi : i < l.length := by simpa using h1
    simp [hd i hi]

theorem Holds.data {p : Pool T} {l : List T} (h : Holds p l) : ∀ i (hi : i < l.length), p.data i = l[i] := by
  obtain ⟨n, hn, hi⟩ := h.inv
  have := h.elems
  rw [elements_eq hi, abs] at this
  intro i hil
  have h2 := Res.ok.inj this
  have h3 := congrArg (fun z => z[i]?) h2
  simpa [hil] using h3

/-- A new pool holds the empty list. -/
theorem pool_sequential_construct (t0 : T) {n : Nat} (hn : 0 < n) : ∃ p, construct n t0 = .ok p ∧ Holds p [] := by
  obtain ⟨p, h1, h2, _, h4, _⟩ := resetLists_spec (T := T) ⟨n, n, fun _ => t0, fun _ => none, fun _ => none, none, none, none, none⟩ hn hn
  refine ⟨p, h1, holds_of_inv (n := n) (by simpa using h4.symm) ?_ (by simp)⟩
  simpa [List.range_eq_range'] using h2

/-- So does a pool that was reset. -/
theorem pool_sequential_reset {p : Pool T} {l : List T} (h : Holds p l) (t0 : T) : ∃ p', reset p t0 = .ok p' ∧ Holds p' [] := by
  obtain ⟨n, hn, hi⟩ := h.inv
  obtain ⟨p', h1, h2, _, h4, _⟩ := resetLists_spec (T := T)
    { p with size := p.init_size, data := fun _ => t0, next := fun _ => none, prev := fun _ => none } hi.ini hi.ini
  refine ⟨p', h1, holds_of_inv (n := p.init_size) (by simpa using h4.symm) ?_ (by simp)⟩
  simpa [List.range_eq_range'] using h2

/-- `pool_sequential`: asking for a slot gives the next number, whether or not the pool has to grow, and appends one element. -/
theorem pool_sequential {p : Pool T} {l : List T} (h : Holds p l) (t0 : T) :
    ∃ p' v, getSlot p t0 = .ok (p', l.length) ∧ Holds p' (l ++ [v]) := by
  have key : ∀ {q : Pool T} {n : Nat}, l.length + (n + 1) = q.size → Inv q (List.range' l.length (n + 1)) (List.range l.length) →
      (∀ i (hi : i < l.length), q.data i = l[i]) → ∃ p' v, (match q.freeStart with
        | none => .abort
        | some x => (remove q.size (freeList q) x).bind fun l =>
            let p2 := withFree q l
            (addBack p2.size (allocList p2) x).bind fun l2 => .ok (withAlloc p2 l2, x)) = Res.ok (p', l.length) ∧ Holds p' (l ++ [v]) := by
    intro q n hs hq hd
    rw [List.range'_succ] at hq
    have hf : q.freeStart = some l.length := by rw [hq.dllF.first]; rfl
    obtain ⟨a, b, h1, h2, h3⟩ := take_spec hq
    rw [hf]
    dsimp only
    rw [h1, Res.ok_bind]
    have e : (withFree q a).size = q.size := rfl
    rw [e, h2, Res.ok_bind]
    refine ⟨_, q.data l.length, rfl, holds_of_inv (n := n) ?_ ?_ ?_⟩
    · rw [List.length_append, List.length_singleton]; show _ = q.size; omega
    · rw [List.length_append, List.length_singleton, List.range_succ]; exact h3
    · intro i hi
      show q.data i = _
      rw [List.length_append, List.length_singleton] at hi
      by_cases hil : i < l.length
      · rw [List.getElem_append_left hil]; exact hd i hil
      · have : i = l.length := by omega
        subst this
        simp
  obtain ⟨n, hn, hi⟩ := h.inv
  unfold getSlot
  cases n with
  | succ n =>
    have hf : p.freeStart ≠ none := by rw [hi.dllF.first, List.range'_succ]; simp
    rw [if_neg hf, Res.ok_bind]
    exact key hn hi h.data
  | zero =>
    have hf : p.freeStart = none := by rw [hi.dllF.first]; rfl
    rw [if_pos hf]
    obtain ⟨q, g1, g2, g3⟩ := grow_spec hi t0
    rw [g1, Res.ok_bind]
    have hps : p.size = l.length := by omega
    have hlen : 0 < l.length := by have := hi.pos; omega
    have hmap : List.range' l.length 0 ++ (List.range p.size).map (p.size + ·) = List.range' l.length l.length := by
      rw [hps, List.range'_eq_map_range, List.range'_eq_map_range]; rfl
    rw [hmap] at g2
    obtain ⟨m, hm⟩ : ∃ m, l.length = m + 1 := ⟨l.length - 1, by omega⟩
    have hqs : q.size = 2 * l.length := by
      have h1 := (g2.all (q.size - 1)).1 (by have := g2.pos; omega)
      have h2 := (g2.all (2 * l.length - 1)).2 (Or.inl (by rw [List.mem_range'_1]; omega))
      rw [List.mem_range'_1, List.mem_range] at h1
      omega
    refine key (n := m) (by omega) ?_ (fun i hi' => by rw [g3 i (by omega)]; exact h.data i hi')
    rw [← hm]; exact g2

/-- Writing to a slot that was handed out replaces that element. -/
theorem pool_sequential_write {p : Pool T} {l : List T} (h : Holds p l) {i : Nat} (hi : i < l.length) (v : T) :
    ∃ p', write p i v = .ok p' ∧ Holds p' (l.set i v) := by
  obtain ⟨n, hn, hv⟩ := h.inv
  unfold write
  rw [if_pos (by omega)]
  refine ⟨_, rfl, holds_of_inv (n := n) (by rw [List.length_set]; exact hn)
    (by rw [List.length_set]; exact ⟨hv.ini, hv.pos, hv.dllF, hv.dllA, hv.disj, hv.all⟩) ?_⟩
  intro j hj
  rw [List.length_set] at hj
  rw [List.getElem_set]
  show upd p.data i v j = _
  by_cases hij : i = j
  · subst hij; simp [upd]
  · rw [if_neg hij, ← h.data j hj]; exact upd_ne _ _ (fun e => hij e.symm)

/-- Reading a slot that was handed out gives that element. -/
theorem pool_sequential_read {p : Pool T} {l : List T} (h : Holds p l) {i : Nat} (hi : i < l.length) : read p i = .ok l[i] := by
  obtain ⟨n, hn, _⟩ := h.inv
  unfold read
  rw [if_pos (by omega), h.data i hi]

/-- Three slots from a pool of size 1, which grows twice. -/
example : (do
    let p ← construct 1 (0 : Nat)
    let a ← getSlot p 0
    let b ← getSlot a.1 0
    let c ← getSlot b.1 0
    let p ← write c.1 1 7
    let es ← elements p
    pure (a.2, b.2, c.2, es) : Res _) = .ok (0, 1, 2, [(0, 0), (1, 7), (2, 0)]) := by rfl

end Verif.Pool
