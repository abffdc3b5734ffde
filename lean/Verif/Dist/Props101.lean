import Verif.Dist.Local
import Verif.Dist.Props28
import Verif.Dist.Props29
/-
C101 (programs that work in different directories do not affect each other).
-/
namespace Verif.Dist
open Verif Verif.ND Verif.Stream

/-- Programs with one file system. Each has at most one library object. -/
structure Many where
  fs : FS
  lib : Nat → Option Lib

/-- Program `e.1` makes the call `e.2`. The programs may have different parameters (cache sizes, contents of fresh memory, ...). -/
def Many.step (C : Nat → Cfg) (S : Nat → Tree.Sorter) (st : Many) (e : Nat × LOp) : Res (Many × Nat × Out) :=
  (MState.step (C e.1) (S e.1) ⟨st.lib e.1, st.fs⟩ e.2).bind fun r => .ok (⟨r.1.fs, fun k => if k = e.1 then r.1.lib else st.lib k⟩, e.1, r.2)

/-- The calls of all programs in the order in which they are made. -/
def Many.run (C : Nat → Cfg) (S : Nat → Tree.Sorter) : Many → List (Nat × LOp) → Res (Many × List (Nat × Out))
  | st, [] => .ok (st, [])
  | st, e :: σ => (st.step C S e).bind fun r => (r.1.run C S σ).bind fun q => .ok (q.1, r.2 :: q.2)

/-! ### Specification -/

/-- What belongs to program `k` in a list of calls or results. -/
def ofProg {α : Type} (k : Nat) (l : List (Nat × α)) : List α := (l.filter fun e => e.1 = k).map Prod.snd

/-! ### The property -/

theorem ofProg_cons_self {α : Type} (k : Nat) (x : α) (l : List (Nat × α)) : ofProg k ((k, x) :: l) = x :: ofProg k l := by simp [ofProg]
theorem ofProg_cons_ne {α : Type} {k j : Nat} (h : j ≠ k) (x : α) (l : List (Nat × α)) : ofProg k ((j, x) :: l) = ofProg k l := by simp [ofProg, h]

section
variable {C : Nat → Cfg} {S : Nat → Tree.Sorter} {D : Nat → Nat → Bool}

/-- One call, in company and alone. -/
theorem company_step {lib : Option Lib} {fs fs' : FS} {k : Nat} {op : LOp} (hin : MState.In (D k) ⟨lib, fs⟩) (hop : op.In (D k)) (ha : ∀ d m, D k d = true → fs' (d, m) = fs (d, m)) :
    MState.step (C k) (S k) ⟨lib, fs'⟩ op = (MState.step (C k) (S k) ⟨lib, fs⟩ op).bind fun r => .ok (⟨r.1.lib, ov (D k) fs' r.1.fs⟩, r.2) := by
  have e : fs' = ov (D k) fs' fs := by
    funext p
    obtain ⟨d, m⟩ := p
    unfold ov
    split
    · rename_i h; exact ha d m h
    · rfl
  conv_lhs => rw [e]
  exact (step_loc (C := C k) (S := S k) (D := D k) (g := fs') hin hop).1

theorem ok_of_bind {α β : Type} {x : Res α} {f : α → Res β} {b : β} (h : x.bind f = .ok b) : ∃ a, x = .ok a ∧ f a = .ok b := Res.bind_eq_ok.1 h

theorem company (hD : ∀ k k' d, D k d = true → D k' d = true → k = k') : ∀ (σ : List (Nat × LOp)) (st : Many) (a : Nat → FS), (∀ e ∈ σ, e.2.In (D e.1)) →
    (∀ k, MState.In (D k) ⟨st.lib k, a k⟩) → (∀ k d m, D k d = true → st.fs (d, m) = a k (d, m)) → ∀ (b : Nat → MState) (outs : Nat → List Out),
    (∀ k, MState.run (C k) (S k) ⟨st.lib k, a k⟩ (ofProg k σ) = .ok (b k, outs k)) →
    ∃ st' r, st.run C S σ = .ok (st', r) ∧ (∀ k, ofProg k r = outs k ∧ st'.lib k = (b k).lib ∧ ∀ d m, D k d = true → st'.fs (d, m) = (b k).fs (d, m)) ∧
      ∀ d m, (∀ k, D k d = false) → st'.fs (d, m) = st.fs (d, m)
  | [], st, a, _, _, ha, b, outs, hrun => by
      refine ⟨st, [], rfl, fun k => ?_, fun _ _ _ => rfl⟩
      have h := Res.ok.inj (hrun k)
      have h1 : (⟨st.lib k, a k⟩ : MState) = b k := (Prod.ext_iff.1 h).1
      have h2 : [] = outs k := (Prod.ext_iff.1 h).2
      rw [← h1, ← h2]
      exact ⟨rfl, rfl, fun d m hd => ha k d m hd⟩
  | (j, op) :: σ, st, a, hσ, hin, ha, b, outs, hrun => by
      have hj := hrun j
      rw [ofProg_cons_self] at hj
      obtain ⟨r, h1, h2⟩ := ok_of_bind hj
      obtain ⟨q, h3, h4⟩ := ok_of_bind h2
      have hop := hσ (j, op) (by simp)
      have hloc := (step_loc (C := C j) (S := S j) (D := D j) (g := st.fs) (hin j) hop).2 _ h1
      have hstep := company_step (C := C) (S := S) (fs' := st.fs) (hin j) hop (fun d m hd => ha j d m hd)
      rw [h1] at hstep
      replace hstep : MState.step (C j) (S j) ⟨st.lib j, st.fs⟩ op = .ok (⟨r.1.lib, ov (D j) st.fs r.1.fs⟩, r.2) := hstep
      have hout : ∀ k d m, k ≠ j → D k d = true → ov (D j) st.fs r.1.fs (d, m) = st.fs (d, m) := fun k d m hk hd => by
        unfold ov
        rw [if_neg fun hc => hk (hD k j d hd hc)]
      obtain ⟨st', r', e1, e2, e3⟩ := company hD σ ⟨ov (D j) st.fs r.1.fs, fun k => if k = j then r.1.lib else st.lib k⟩ (fun k => if k = j then r.1.fs else a k) (fun e he => hσ e (by simp [he]))
        (fun k => by
          by_cases hk : k = j
          · subst hk; simp only [if_true]; exact hloc
          · simp only [hk, if_false]; exact hin k)
        (fun k d m hd => by
          by_cases hk : k = j
          · subst hk; simp only [if_true]; exact ov_at hd m
          · simp only [hk, if_false]
            exact (hout k d m hk hd).trans (ha k d m hd))
        b (fun k => if k = j then q.2 else outs k) (fun k => by
          by_cases hk : k = j
          · subst hk
            simp only [if_true]
            have h5 : q.1 = b k := (Prod.ext_iff.1 (Res.ok.inj h4)).1
            rw [← h5]
            exact h3
          · simp only [hk, if_false]
            have := hrun k
            rwa [ofProg_cons_ne (Ne.symm hk)] at this)
      refine ⟨st', (j, r.2) :: r', ?_, fun k => ?_, fun d m hd => ?_⟩
      · unfold Many.run Many.step
        dsimp only
        rw [hstep]
        simp only [Res.ok_bind]
        rw [e1]
        rfl
      · obtain ⟨f1, f2, f3⟩ := e2 k
        refine ⟨?_, f2, f3⟩
        by_cases hk : k = j
        · subst hk
          simp only [if_true] at f1
          rw [ofProg_cons_self, f1]
          exact (Prod.ext_iff.1 (Res.ok.inj h4)).2
        · simp only [hk, if_false] at f1
          rw [ofProg_cons_ne (Ne.symm hk), f1]
      · rw [e3 d m hd]
        show ov (D j) st.fs r.1.fs (d, m) = _
        unfold ov
        rw [if_neg (by rw [hd j]; exact Bool.false_ne_true)]

/-- **C101.** Let any number of programs make calls, each on a library of its own, and let the directories that they name be different (`D k`: the directories of program `k`).
    Let the calls of each program succeed when it runs alone. Then in every interleaving `σ` of the calls all calls succeed; each program gets the results that it gets alone and ends with the same
    object and the same files in its directories; and directories that belong to no program are as before. -/
theorem C101_apart (C : Nat → Cfg) (S : Nat → Tree.Sorter) (D : Nat → Nat → Bool) (hD : ∀ k k' d, D k d = true → D k' d = true → k = k') (fs : FS) (σ : List (Nat × LOp))
    (hσ : ∀ k op, (k, op) ∈ σ → ∀ d, op.names = some d → D k d = true) (b : Nat → MState) (outs : Nat → List Out)
    (hrun : ∀ k, MState.run (C k) (S k) ⟨none, fs⟩ (ofProg k σ) = .ok (b k, outs k)) :
    ∃ st r, Many.run C S ⟨fs, fun _ => none⟩ σ = .ok (st, r) ∧
      (∀ k, ofProg k r = outs k ∧ st.lib k = (b k).lib ∧ ∀ d m, D k d = true → st.fs (d, m) = (b k).fs (d, m)) ∧ ∀ d m, (∀ k, D k d = false) → st.fs (d, m) = fs (d, m) :=
  company hD σ ⟨fs, fun _ => none⟩ (fun _ => fs) (fun e he => hσ e.1 e.2 he) (fun _ _ e => by cases e) (fun _ _ _ _ => rfl) b outs hrun

theorem company_back (hD : ∀ k k' d, D k d = true → D k' d = true → k = k') : ∀ (σ : List (Nat × LOp)) (st : Many) (a : Nat → FS), (∀ e ∈ σ, e.2.In (D e.1)) →
    (∀ k, MState.In (D k) ⟨st.lib k, a k⟩) → (∀ k d m, D k d = true → st.fs (d, m) = a k (d, m)) → ∀ st' r, st.run C S σ = .ok (st', r) →
    ∀ k, ∃ b, MState.run (C k) (S k) ⟨st.lib k, a k⟩ (ofProg k σ) = .ok (b, ofProg k r)
  | [], st, a, _, _, _, st', r, h, k => by
      cases h
      exact ⟨_, rfl⟩
  | (j, op) :: σ, st, a, hσ, hin, ha, st', r, h, k => by
      obtain ⟨s, h1, h2⟩ := ok_of_bind h
      obtain ⟨q, h3, h4⟩ := ok_of_bind h2
      obtain ⟨x, h5, h6⟩ := ok_of_bind h1
      have hop := hσ (j, op) (by simp)
      have hstep := company_step (C := C) (S := S) (fs' := st.fs) (hin j) hop (fun d m hd => ha j d m hd)
      have h5' : MState.step (C j) (S j) ⟨st.lib j, st.fs⟩ op = .ok x := h5
      rw [hstep] at h5'
      obtain ⟨y, y1, y2⟩ := ok_of_bind h5'
      have hloc := (step_loc (C := C j) (S := S j) (D := D j) (g := st.fs) (hin j) hop).2 _ y1
      have y2 := Res.ok.inj y2
      have h6 := Res.ok.inj h6
      have h4 := Res.ok.inj h4
      subst y2
      subst h6
      have hr : r = (j, y.2) :: q.2 := (Prod.ext_iff.1 h4).2.symm
      have hk := company_back hD σ _ (fun k => if k = j then y.1.fs else a k) (fun e he => hσ e (by simp [he]))
        (fun k => by
          by_cases hk : k = j
          · subst hk; simp only [if_true]; exact hloc
          · simp only [hk, if_false]; exact hin k)
        (fun k d m hd => by
          by_cases hk : k = j
          · subst hk; simp only [if_true]; exact ov_at hd m
          · simp only [hk, if_false]
            show ov (D j) st.fs y.1.fs (d, m) = _
            unfold ov
            rw [if_neg fun hc => hk (hD k j d hd hc)]
            exact ha k d m hd) q.1 q.2 h3 k
      obtain ⟨b, hb⟩ := hk
      refine ⟨b, ?_⟩
      rw [hr]
      by_cases e : k = j
      · subst e
        simp only [if_true] at hb
        rw [ofProg_cons_self, ofProg_cons_self]
        unfold MState.run
        rw [y1]
        simp only [Res.ok_bind]
        rw [hb]
        rfl
      · simp only [e, if_false] at hb
        rw [ofProg_cons_ne (Ne.symm e), ofProg_cons_ne (Ne.symm e)]
        exact hb

/-- **C101.** Conversely, if all calls of an interleaving succeed, then so do those of each program alone, with the same results: no call succeeds only because of the other programs. -/
theorem C101_apart_conversely (C : Nat → Cfg) (S : Nat → Tree.Sorter) (D : Nat → Nat → Bool) (hD : ∀ k k' d, D k d = true → D k' d = true → k = k') (fs : FS) (σ : List (Nat × LOp))
    (hσ : ∀ k op, (k, op) ∈ σ → ∀ d, op.names = some d → D k d = true) (st : Many) (r : List (Nat × Out)) (h : Many.run C S ⟨fs, fun _ => none⟩ σ = .ok (st, r)) (k : Nat) :
    ∃ b, MState.run (C k) (S k) ⟨none, fs⟩ (ofProg k σ) = .ok (b, ofProg k r) :=
  company_back hD σ ⟨fs, fun _ => none⟩ (fun _ => fs) (fun e he => hσ e.1 e.2 he) (fun _ _ e => by cases e) (fun _ _ _ _ => rfl) st r h k

/-- **C101.** So if the calls of each program are allowed (in the sense of C28), then in every interleaving they succeed and each program gets the right answers. -/
theorem C101_right_answers (C : Nat → Cfg) (hC : ∀ k, (C k).Ok) (S : Nat → Tree.Sorter) (Z : Nat → Tree.SlabSize) (D : Nat → Nat → Bool) (hD : ∀ k k' d, D k d = true → D k' d = true → k = k') (fs : FS)
    (hfs : ∀ d, fs (d, .index) = none) (σ : List (Nat × LOp)) (hσ : ∀ k op, (k, op) ∈ σ → ∀ d, op.names = some d → D k d = true) (hl : ∀ k, AllLegal (C k) (World.init fs) (ofProg k σ)) :
    ∃ st r, Many.run C S ⟨fs, fun _ => none⟩ σ = .ok (st, r) ∧ ∀ k, AllAnswer (C k) (World.init fs) (ofProg k σ) (ofProg k r) := by
  have h : ∀ k, ∃ b outs, MState.run (C k) (S k) ⟨none, fs⟩ (ofProg k σ) = .ok (b, outs) ∧ AllAnswer (C k) (World.init fs) (ofProg k σ) outs := fun k => by
    obtain ⟨b, outs, e1, e2, _⟩ := runW_ok (hC k) (ofProg k σ) (WInv.init (S := S k) (Z := Z k) hfs) (hl k)
    exact ⟨b, outs, e1, e2⟩
  choose b outs h1 h2 using h
  obtain ⟨st, r, e1, e2, _⟩ := C101_apart C S D hD fs σ hσ b outs h1
  exact ⟨st, r, e1, fun k => by rw [(e2 k).1]; exact h2 k⟩

end

/-! ### Two programs -/

namespace Ex101

/-- Program 0 works in the directories 0, 5 and 1, program 1 in directory 7. -/
def D : Nat → Nat → Bool
  | 0, d => d = 0 ∨ d = 5 ∨ d = 1
  | 1, d => d = 7
  | _, _ => false

theorem D_disjoint : ∀ k k' d, D k d = true → D k' d = true → k = k' := by
  intro k k' d h h'
  rcases k with _ | _ | k <;> rcases k' with _ | _ | k' <;> simp [D] at h h' ⊢ <;> omega

/-- The calls of program 1. Its chunk file has the same name as the first one of program 0. -/
def mine : List LOp := [.open 7 [1, 1], .register [65] Ex.s0 [0, 0] [1, 2] 0 false, .get [0, 1], .flush, .get [0, 0], .close]

/-- The history of C28 (program 0) with the calls of program 1 in between. -/
def σ : List (Nat × LOp) :=
  (Ex.hist.take 2).map (fun o => (0, o)) ++ (mine.take 2).map (fun o => (1, o)) ++ ((Ex.hist.drop 2).take 3).map (fun o => (0, o)) ++ [(1, .get [0, 1]), (1, .flush)] ++
    ((Ex.hist.drop 5).take 8).map (fun o => (0, o)) ++ [(1, .get [0, 0])] ++ (Ex.hist.drop 13).map (fun o => (0, o)) ++ [(1, .close)]

theorem of0 : ofProg 0 σ = Ex.hist := rfl
theorem of1 : ofProg 1 σ = mine := rfl
theorem ofMore (k : Nat) : ofProg (k + 2) σ = [] := by
  unfold ofProg
  rw [List.map_eq_nil_iff, List.filter_eq_nil_iff]
  intro e he
  have h : ∀ e ∈ σ, e.1 < 2 := by simp [σ, Ex.hist, mine]
  have := h e he
  simp only [decide_eq_true_eq]
  omega

theorem own : ∀ k op, (k, op) ∈ σ → ∀ d, op.names = some d → D k d = true := by
  have h : ∀ e ∈ σ, ∀ d, e.2.names = some d → D e.1 d = true := by simp [σ, Ex.hist, mine, LOp.names, D]
  exact fun k op hk => h (k, op) hk

theorem mine_legal : AllLegal (Ex.cfg 2) (World.init fun _ => none) mine := by
  refine ⟨⟨rfl, by decide⟩, ⟨_, rfl, Ex.canRegister (n := 1) (m := 2) (x := 0) (y := 0) (by decide) (by decide) rfl (by decide) (by decide) (by decide) (by decide)
      (fun p hp => by cases hp) (by decide)⟩,
    ⟨_, _, rfl, List.mem_cons_self, Ex.inBox2 (n := 1) (m := 2) (by decide) (by decide), fun _ => rfl⟩, ⟨_, rfl⟩,
    ⟨_, _, rfl, List.mem_cons_self, Ex.inBox2 (n := 1) (m := 2) (by decide) (by decide), fun _ => rfl⟩, ⟨_, rfl⟩, trivial⟩

/-- Program 1 has a bigger cache. -/
def C : Nat → Cfg | 1 => Ex.cfg 2 | _ => Ex.cfg 1
theorem C_ok : ∀ k, (C k).Ok
  | 0 => Ex.cfg_ok 1
  | 1 => Ex.cfg_ok 2
  | _ + 2 => Ex.cfg_ok 1

theorem legal : ∀ k, AllLegal (C k) (World.init fun _ => none) (ofProg k σ)
  | 0 => by rw [of0]; exact Ex.hist_legal
  | 1 => by rw [of1]; exact mine_legal
  | k + 2 => by rw [ofMore]; trivial

/-- All hypotheses are met by this history. -/
example : ∃ st r, Many.run C (fun _ => Tree.Ex.S) ⟨fun _ => none, fun _ => none⟩ σ = .ok (st, r) ∧ ∀ k, AllAnswer (C k) (World.init fun _ => none) (ofProg k σ) (ofProg k r) :=
  C101_right_answers C C_ok (fun _ => Tree.Ex.S) (fun _ => Tree.Ex.Z) D D_disjoint _ (fun _ => rfl) σ own legal

/-- The results, computed by the model: each program gets its own value. -/
example : (match Many.run C (fun _ => Tree.Ex.S) ⟨fun _ => none, fun _ => none⟩ σ with | .ok r => ofProg 1 r.2 | _ => []) = [.unit, .unit, .vec [6], .unit, .vec [5], .unit] := by decide +kernel

end Ex101
end Verif.Dist
