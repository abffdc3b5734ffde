import Verif.Dist.Props101
import Verif.Meep.Fill
/-
Processes that share a file system and make steps of any kind, each in directories of its own: the order of the steps of different processes does not matter. (General form of C101, for the processes of a
parallel calculation, C102.)
-/
namespace Verif.Meep
open Verif Verif.ND Verif.Dist

/-- The part of a state that holds the files. -/
structure FsPart (P : Type) where
  get : P → FS
  set : P → FS → P
  get_set : ∀ p f, get (set p f) = f
  set_set : ∀ p f f', set (set p f) f' = set p f'
  set_get : ∀ p, set p (get p) = p

/-- A common file system, and the state of each process (in which the file system is not up to date). -/
structure Team (P : Type) where
  fs : FS
  priv : Nat → P

/-- Process `e.1` makes the step `e.2`, on the files as they are now. -/
def Team.step {P A : Type} (V : FsPart P) (act : Nat → A → P → Res P) (e : Nat × A) (st : Team P) : Res (Team P) :=
  (act e.1 e.2 (V.set (st.priv e.1) st.fs)).bind fun p => .ok ⟨V.get p, fun k => if k = e.1 then p else st.priv k⟩

section
variable {P A : Type} {V : FsPart P} {act : Nat → A → P → Res P} {D : Nat → Nat → Bool} {In : Nat → P → Prop} {Ok : Nat → A → Prop}

/-- The steps that are `Ok` use only the directories of the process. -/
def Local (V : FsPart P) (act : Nat → A → P → Res P) (D : Nat → Nat → Bool) (In : Nat → P → Prop) (Ok : Nat → A → Prop) : Prop :=
  ∀ k a p g, In k p → Ok k a → Loc (fun p => V.set p (ov (D k) g (V.get p))) (In k) (act k a (V.set p (ov (D k) g (V.get p)))) (act k a p)

theorem team_at (hloc : Local V act D In Ok) {k : Nat} {e : A} {p a : P} {fs : FS} (hin : In k a) (hok : Ok k e) (hv : ∀ f, V.set p f = V.set a f) (ha : ∀ d m, D k d = true → fs (d, m) = V.get a (d, m)) :
    act k e (V.set p fs) = (act k e a).bind fun b => .ok (V.set b (ov (D k) fs (V.get b))) := by
  have h1 : fs = ov (D k) fs (V.get a) := by
    funext q
    obtain ⟨d, m⟩ := q
    unfold ov
    split
    · rename_i h; exact ha d m h
    · rfl
  rw [hv]
  conv_lhs => rw [h1]
  exact (hloc k e a fs hin hok).1

theorem team_forth (hD : ∀ k k' d, D k d = true → D k' d = true → k = k') (hloc : Local V act D In Ok) : ∀ (σ : List (Nat × A)) (st : Team P) (a : Nat → P), (∀ e ∈ σ, Ok e.1 e.2) → (∀ k, In k (a k)) →
    (∀ k f, V.set (st.priv k) f = V.set (a k) f) → (∀ k d m, D k d = true → st.fs (d, m) = V.get (a k) (d, m)) → ∀ (b : Nat → P), (∀ k, runLoop (act k) (ofProg k σ) (a k) = .ok (b k)) →
    ∃ st', runLoop (Team.step V act) σ st = .ok st' ∧ (∀ k f, V.set (st'.priv k) f = V.set (b k) f) ∧ (∀ k d m, D k d = true → st'.fs (d, m) = V.get (b k) (d, m)) ∧
      ∀ d m, (∀ k, D k d = false) → st'.fs (d, m) = st.fs (d, m)
  | [], st, a, _, _, hv, ha, b, hrun => by
      have h : ∀ k, a k = b k := fun k => Res.ok.inj (hrun k)
      exact ⟨st, rfl, fun k f => by rw [hv, h], fun k d m hd => by rw [ha k d m hd, h], fun _ _ _ => rfl⟩
  | (j, e) :: σ, st, a, hσ, hin, hv, ha, b, hrun => by
      have hj := hrun j
      rw [ofProg_cons_self] at hj
      obtain ⟨r, h1, h2⟩ := Res.bind_eq_ok.1 hj
      have hok := hσ (j, e) (by simp)
      have hr := (hloc j e (a j) st.fs (hin j) hok).2 _ h1
      have hs := team_at hloc (fs := st.fs) (hin j) hok (hv j) (ha j)
      rw [h1] at hs
      replace hs : act j e (V.set (st.priv j) st.fs) = .ok (V.set r (ov (D j) st.fs (V.get r))) := hs
      obtain ⟨st', e1, e2, e3, e4⟩ := team_forth hD hloc σ ⟨ov (D j) st.fs (V.get r), fun k => if k = j then V.set r (ov (D j) st.fs (V.get r)) else st.priv k⟩ (fun k => if k = j then r else a k)
        (fun e he => hσ e (by simp [he]))
        (fun k => by
          by_cases hk : k = j
          · subst hk; simp only [if_true]; exact hr
          · simp only [hk, if_false]; exact hin k)
        (fun k f => by
          by_cases hk : k = j
          · subst hk; simp only [if_true]; rw [V.set_set]
          · simp only [hk, if_false]; exact hv k f)
        (fun k d m hd => by
          by_cases hk : k = j
          · subst hk; simp only [if_true]; exact ov_at hd m
          · simp only [hk, if_false]
            show ov (D j) st.fs (V.get r) (d, m) = _
            unfold ov
            rw [if_neg fun hc => hk (hD k j d hd hc)]
            exact ha k d m hd) b (fun k => by
          by_cases hk : k = j
          · subst hk; simp only [if_true]; exact h2
          · simp only [hk, if_false]
            have := hrun k
            rwa [ofProg_cons_ne (Ne.symm hk)] at this)
      refine ⟨st', ?_, e2, e3, fun d m hd => ?_⟩
      · show (Team.step V act (j, e) st).bind _ = _
        unfold Team.step
        rw [hs]
        simp only [Res.ok_bind, V.get_set]
        exact e1
      · rw [e4 d m hd]
        show ov (D j) st.fs (V.get r) (d, m) = _
        unfold ov
        rw [if_neg (by rw [hd j]; decide)]

theorem team_back (hD : ∀ k k' d, D k d = true → D k' d = true → k = k') (hloc : Local V act D In Ok) : ∀ (σ : List (Nat × A)) (st : Team P) (a : Nat → P), (∀ e ∈ σ, Ok e.1 e.2) → (∀ k, In k (a k)) →
    (∀ k f, V.set (st.priv k) f = V.set (a k) f) → (∀ k d m, D k d = true → st.fs (d, m) = V.get (a k) (d, m)) → ∀ st', runLoop (Team.step V act) σ st = .ok st' →
    ∀ k, ∃ b, runLoop (act k) (ofProg k σ) (a k) = .ok b
  | [], st, a, _, _, _, _, _, _, k => ⟨a k, rfl⟩
  | (j, e) :: σ, st, a, hσ, hin, hv, ha, st', hrun, k => by
      obtain ⟨s1, h1, h2⟩ := Res.bind_eq_ok.1 hrun
      obtain ⟨x, h3, h4⟩ := Res.bind_eq_ok.1 h1
      have hok := hσ (j, e) (by simp)
      rw [team_at hloc (fs := st.fs) (hin j) hok (hv j) (ha j)] at h3
      obtain ⟨r, h5, h6⟩ := Res.bind_eq_ok.1 h3
      have hr := (hloc j e (a j) st.fs (hin j) hok).2 _ h5
      have h6 := Res.ok.inj h6
      subst h6
      have h4 := Res.ok.inj h4
      subst h4
      have hk := team_back hD hloc σ _ (fun k => if k = j then r else a k)
        (fun e he => hσ e (by simp [he]))
        (fun k => by
          by_cases hk : k = j
          · subst hk; simp only [if_true]; exact hr
          · simp only [hk, if_false]; exact hin k)
        (fun k f => by
          by_cases hk : k = j
          · subst hk; simp only [if_true]; rw [V.set_set]
          · simp only [hk, if_false]; exact hv k f)
        (fun k d m hd => by
          rw [V.get_set]
          by_cases hk : k = j
          · subst hk; simp only [if_true]; exact ov_at hd m
          · simp only [hk, if_false]
            show ov (D j) st.fs (V.get r) (d, m) = _
            unfold ov
            rw [if_neg fun hc => hk (hD k j d hd hc)]
            exact ha k d m hd) st' h2 k
      obtain ⟨b, hb⟩ := hk
      refine ⟨b, ?_⟩
      by_cases hk : k = j
      · subst hk
        simp only [if_true] at hb
        rw [ofProg_cons_self]
        simp only [runLoop]
        rw [h5]
        exact hb
      · simp only [hk, if_false] at hb
        rw [ofProg_cons_ne (Ne.symm hk)]
        exact hb

/-- If one interleaving of the steps succeeds, so does every other, with the same files. -/
theorem team_any (hD : ∀ k k' d, D k d = true → D k' d = true → k = k') (hloc : Local V act D In Ok) {σ σ' : List (Nat × A)} {fs : FS} {q : Nat → P} (hσ : ∀ e ∈ σ, Ok e.1 e.2) (hσ' : ∀ e ∈ σ', Ok e.1 e.2)
    (he : ∀ k, ofProg k σ = ofProg k σ') (hq : ∀ k, In k (V.set (q k) fs)) {t : Team P} (h : runLoop (Team.step V act) σ ⟨fs, q⟩ = .ok t) :
    ∃ t', runLoop (Team.step V act) σ' ⟨fs, q⟩ = .ok t' ∧ t'.fs = t.fs ∧ ∀ k f, V.set (t'.priv k) f = V.set (t.priv k) f := by
  have hv : ∀ k f, V.set (q k) f = V.set (V.set (q k) fs) f := fun k f => (V.set_set _ _ _).symm
  have hg : ∀ (k d : Nat) (m : Name), D k d = true → fs (d, m) = V.get (V.set (q k) fs) (d, m) := fun k d m _ => by rw [V.get_set]
  have hb := team_back hD hloc σ ⟨fs, q⟩ (fun k => V.set (q k) fs) hσ hq hv hg t h
  choose b hb using hb
  obtain ⟨t1, e1, e2, e3, e4⟩ := team_forth hD hloc σ ⟨fs, q⟩ (fun k => V.set (q k) fs) hσ hq hv hg b hb
  rw [h] at e1
  obtain rfl := Res.ok.inj e1
  obtain ⟨t', f1, f2, f3, f4⟩ := team_forth hD hloc σ' ⟨fs, q⟩ (fun k => V.set (q k) fs) hσ' hq hv hg b fun k => by rw [← he]; exact hb k
  refine ⟨t', f1, ?_, fun k f => by rw [f2, e2]⟩
  funext ⟨d, m⟩
  by_cases hd : ∃ k, D k d = true
  · obtain ⟨k, hd⟩ := hd
    rw [e3 k d m hd, f3 k d m hd]
  · have hd' : ∀ k, D k d = false := fun k => by
      cases hk : D k d with
      | false => rfl
      | true => exact absurd ⟨k, hk⟩ hd
    rw [e4 d m hd', f4 d m hd']

end

end Verif.Meep
