import Verif.Dist.Props101
import Verif.Dist.Props29
import Verif.Meep.RechunkRun
import Verif.Green.CreateProof
/-
C103 (several programs read the same libraries at the same time).
-/
namespace Verif.Dist
open Verif Verif.ND Verif.Bytes Verif.Stream

/-! ### Specification -/

/-- The calls of a program that only reads: it opens libraries that exist, reads and closes. -/
def LOp.ReadsFrom (w : World) : LOp → Prop
  | .open d _ => w.disk d ≠ none
  | .close => True
  | op => op.Reads

/-- DistributedNDVecArray.hxx 574-585 `FlushIndex`, file operation by file operation: the contents of the files after line 582 (the file is opened with `std::ios::out`, so its contents are removed) and after 585. -/
def Index.flushSteps (C : Cfg) (x : Index) (fs : FS) : Res (List FS) :=
  x.all.bind fun ms => .ok [fs.set (x.dir, .index) (some []), fs.set (x.dir, .index) (some ((vector C.hst (metaCodec C.hst C.dims)).ser ms))]

/-! ### Proof -/

section
variable {C : Cfg} {S : Tree.Sorter} {Z : Tree.SlabSize} {st : MState} {w w0 : World}

/-- What the user knows of a program that has only read, compared to the beginning. -/
def Since (w0 w : World) : Prop := match w.cur with
  | none => w.disk = w0.disk
  | some l => w.disk = upd w0.disk l.dir none ∧ w0.disk l.dir = some l.pieces

/-- The state of a program that has only read: there is nothing to write. -/
structure RInv (C : Cfg) (S : Tree.Sorter) (Z : Tree.SlabSize) (w0 : World) (st : MState) (w : World) : Prop where
  inv : WInv C S Z st w
  since : Since w0 w
  tidy : ∀ l, w.cur = some l → (∀ lib, st.lib = some lib → lib.cc.Clean) ∧ ∀ cs, Chunky C cs → Rep C cs l.pieces → st.fs (l.dir, .index) = some (indexFile C (cs.map Prod.fst))

theorem RInv.open_ok (hC : C.Ok) (h : RInv C S Z w0 st w) {d : Nat} {init : List Nat} (hl : Legal C w (.open d init)) (hd : w0.disk d ≠ none) :
    ∃ st' r, st.step C S (.open d init) = .ok (st', r) ∧ st'.fs = st.fs ∧ Answer C w (.open d init) r ∧ RInv C S Z w0 st' (w.next C (.open d init)) := by
  obtain ⟨st', r, e1, e2, e3⟩ := step_open hC h.inv hl
  have hs := h.since
  unfold Since at hs
  rw [hl.1] at hs
  have hs : w.disk = w0.disk := hs
  obtain ⟨ps, hp⟩ := Option.ne_none_iff_exists'.1 hd
  have hwp : w.disk d = some ps := by rw [hs, hp]
  have e1' := e1
  unfold MState.step at e1'
  obtain ⟨lib, g1, g2⟩ := Res.bind_eq_ok.1 e1'
  have g2 := Res.ok.inj g2
  have hst : st' = ⟨some lib, st.fs⟩ := (Prod.ext_iff.1 g2).1.symm
  refine ⟨st', r, e1, by rw [hst], e2, e3, ?_, fun l e => ⟨fun lib' e' => ?_, fun cs hc hr => ?_⟩⟩
  · show upd w.disk d none = upd w0.disk d none ∧ w0.disk d = some ((w.disk d).getD [])
    rw [hs, hp]
    exact ⟨rfl, rfl⟩
  · rw [hst] at e'
    cases e'
    exact (open_clean g1).1
  · have e : (⟨d, 0, (w.disk d).getD []⟩ : LibSpec) = l := Option.some.inj e
    subst e
    obtain ⟨cs0, k1, k2, _⟩ := h.inv.disk d ps hwp
    have hr : Rep C cs ((w.disk d).getD []) := hr
    rw [hwp] at hr
    show st'.fs (d, .index) = _
    rw [hst, ← Rep.metas k1.chunky hc k2 hr]
    exact k1.index

theorem RInv.close_ok (hC : C.Ok) (h : RInv C S Z w0 st w) (hl : Legal C w .close) :
    ∃ st' r, st.step C S .close = .ok (st', r) ∧ st'.fs = st.fs ∧ Answer C w .close r ∧ RInv C S Z w0 st' (w.next C .close) := by
  obtain ⟨st', r, e1, e2, e3⟩ := step_close hC h.inv hl
  obtain ⟨l, h1⟩ := hl
  obtain ⟨lib, cs, a1, a2, a3, a4, a5, a6⟩ := h.inv.opened l h1
  obtain ⟨t1, t2⟩ := h.tidy l h1
  have hcl := Meep.close_same hC a2 (t1 lib a1) (by rw [a5]; exact t2 cs a2.chunky a3)
  have e1' := e1
  unfold MState.step at e1'
  simp only [a1, hcl, Res.ok_bind] at e1'
  have e1' := Res.ok.inj e1'
  have hst : st' = ⟨none, st.fs⟩ := (Prod.ext_iff.1 e1').1.symm
  have hw : w.next C .close = { w with cur := none, disk := upd w.disk l.dir (some l.pieces) } := by unfold World.next; rw [h1]
  refine ⟨st', r, e1, by rw [hst], e2, e3, ?_, fun l' e => ?_⟩
  · have hs := h.since
    unfold Since at hs
    rw [h1] at hs
    obtain ⟨s1, s2⟩ : w.disk = upd w0.disk l.dir none ∧ w0.disk l.dir = some l.pieces := hs
    rw [hw]
    show upd w.disk l.dir (some l.pieces) = w0.disk
    rw [s1]
    funext d
    unfold upd
    by_cases hd : d = l.dir
    · rw [if_pos hd, hd, s2]
    · rw [if_neg hd, if_neg hd]
  · rw [hw] at e
    cases e

theorem reads_next {op : LOp} (h : op.Reads) (w : World) : w.next C op = w := by
  unfold World.next
  cases op <;> first | exact h.elim | (cases w.cur <;> rfl)

theorem reads_open {op : LOp} (h : op.Reads) (hl : Legal C w op) : ∃ l, w.cur = some l := by
  cases op <;> first | exact h.elim | (obtain ⟨l, h⟩ := hl; first | exact ⟨l, h.1⟩ | exact ⟨l, h⟩ | (obtain ⟨_, h⟩ := h; exact ⟨l, h.1⟩))

theorem RInv.read_ok (hC : C.Ok) (h : RInv C S Z w0 st w) {op : LOp} (ho : op.Reads) (hl : Legal C w op) :
    ∃ st' r, st.step C S op = .ok (st', r) ∧ st'.fs = st.fs ∧ Answer C w op r ∧ RInv C S Z w0 st' (w.next C op) := by
  obtain ⟨st', r, e1, e2, e3⟩ := stepW_ok hC h.inv op hl
  obtain ⟨l, h1⟩ := reads_open ho hl
  obtain ⟨lib, cs, a1, a2, a3, a4, a5, a6⟩ := h.inv.opened l h1
  obtain ⟨t1, t2⟩ := h.tidy l h1
  obtain ⟨lib', g1, g2, g3⟩ := step_clean a1 (t1 lib a1) ho e1
  rw [reads_next ho] at e3 ⊢
  refine ⟨st', r, e1, g2.fs, e2, e3, h.since, fun l' e => ?_⟩
  rw [h1] at e
  cases e
  refine ⟨fun lib'' e => ?_, fun cs hc hr => by rw [g2.fs]; exact t2 cs hc hr⟩
  rw [g1] at e
  cases e
  exact g2.clean

theorem RInv.step_ok (hC : C.Ok) (h : RInv C S Z w0 st w) {op : LOp} (ho : op.ReadsFrom w0) (hl : Legal C w op) :
    ∃ st' r, st.step C S op = .ok (st', r) ∧ st'.fs = st.fs ∧ Answer C w op r ∧ RInv C S Z w0 st' (w.next C op) := by
  cases op with
  | «open» d init => exact h.open_ok hC hl ho
  | close => exact h.close_ok hC hl
  | get => exact h.read_ok hC ho hl
  | fill => exact h.read_ok hC ho hl
  | query => exact h.read_ok hC ho hl
  | loop => exact h.read_ok hC ho hl
  | loopAll => exact h.read_ok hC ho hl
  | _ => exact ho.elim

end

/-- The programs together. -/
theorem readers_ok {C : Nat → Cfg} (hC : ∀ k, (C k).Ok) {S : Nat → Tree.Sorter} {Z : Nat → Tree.SlabSize} {w0 : World} : ∀ (σ : List (Nat × LOp)) (st : Many) (w : Nat → World),
    (∀ k op, (k, op) ∈ σ → op.ReadsFrom w0) → (∀ k, RInv (C k) (S k) (Z k) w0 ⟨st.lib k, st.fs⟩ (w k)) → (∀ k, AllLegal (C k) (w k) (ofProg k σ)) →
    ∃ st' r, st.run C S σ = .ok (st', r) ∧ st'.fs = st.fs ∧ ∀ k, AllAnswer (C k) (w k) (ofProg k σ) (ofProg k r)
  | [], st, w, _, _, _ => ⟨st, [], rfl, rfl, fun _ => trivial⟩
  | (j, op) :: σ, st, w, hσ, hin, hl => by
      have hj := hl j
      rw [ofProg_cons_self] at hj
      obtain ⟨l1, l2⟩ := hj
      obtain ⟨s, r, e1, e2, e3, e4⟩ := (hin j).step_ok (hC j) (hσ j op (by simp)) l1
      have e2 : s.fs = st.fs := e2
      obtain ⟨st', r', f1, f2, f3⟩ := readers_ok hC σ ⟨s.fs, fun k => if k = j then s.lib else st.lib k⟩ (fun k => if k = j then (w j).next (C j) op else w k)
        (fun k op' h => hσ k op' (by simp [h]))
        (fun k => by
          by_cases hk : k = j
          · subst hk; simp only [if_true]; exact e4
          · simp only [hk, if_false]; rw [e2]; exact hin k)
        (fun k => by
          by_cases hk : k = j
          · subst hk; simp only [if_true]; exact l2
          · simp only [hk, if_false]
            have := hl k
            rwa [ofProg_cons_ne (Ne.symm hk)] at this)
      refine ⟨st', (j, r) :: r', ?_, f2.trans e2, fun k => ?_⟩
      · unfold Many.run Many.step
        rw [e1]
        simp only [Res.ok_bind]
        rw [f1]
        rfl
      · have h3 := f3 k
        by_cases hk : k = j
        · subst hk
          simp only [if_true] at h3
          rw [ofProg_cons_self, ofProg_cons_self]
          exact ⟨e3, h3⟩
        · simp only [hk, if_false] at h3
          rw [ofProg_cons_ne (Ne.symm hk), ofProg_cons_ne (Ne.symm hk)]
          exact h3

theorem Rep.withSize {C : Cfg} {n : Nat} {cs : List (Meta × Arr)} {ps : List Piece} (h : Rep C cs ps) : Rep { C with size := n } cs ps :=
  ⟨h.1, fun k c p hc hp => let r := h.2 k c p hc hp; ⟨r.id, r.file, r.start, r.stop, r.overlap, r.val⟩⟩

/-- **C103.** After an allowed history of one program, in which all libraries were closed, any number of programs, with caches of any sizes, open existing libraries, also the same, read from them and close them again. In
    whatever order their calls are made, all calls succeed, no file changes, and each program gets the right answers.  Partial: a call of one program is made between two calls of another one, not
    during a call; see `C103_open_during_close_fails`. -/
theorem C103_readers_partial (C : Cfg) (hC : C.Ok) (S0 : Tree.Sorter) (Z0 : Tree.SlabSize) (fs : FS) (hfs : ∀ d, fs (d, .index) = none) (ops : List LOp) (hops : AllLegal C (World.init fs) ops)
    (hcur : ((World.init fs).run C ops).cur = none) :
    ∃ st0 rs0, MState.run C S0 ⟨none, fs⟩ ops = .ok (st0, rs0) ∧
      ∀ (n : Nat → Nat) (S : Nat → Tree.Sorter) (σ : List (Nat × LOp)), (∀ k op, (k, op) ∈ σ → op.ReadsFrom ((World.init fs).run C ops)) →
        (∀ k, AllLegal { C with size := n k } ((World.init fs).run C ops) (ofProg k σ)) →
        ∃ st r, Many.run (fun k => { C with size := n k }) S ⟨st0.fs, fun _ => none⟩ σ = .ok (st, r) ∧ st.fs = st0.fs ∧
          ∀ k, AllAnswer { C with size := n k } ((World.init fs).run C ops) (ofProg k σ) (ofProg k r) := by
  obtain ⟨st0, rs0, e1, _, e3⟩ := runW_ok hC ops (WInv.init (S := S0) (Z := Z0) hfs) hops
  refine ⟨st0, rs0, e1, fun n S σ hσ hl => ?_⟩
  refine readers_ok (C := fun k => { C with size := n k }) (Z := fun _ => Z0) (fun k => Green.withSize_ok hC (n k)) σ ⟨st0.fs, fun _ => none⟩ (fun _ => (World.init fs).run C ops) hσ (fun k => ?_) hl
  refine ⟨⟨fun _ => rfl, fun l e => ?_, fun d ps hd => ?_, e3.index, e3.names⟩, ?_, fun l e => ?_⟩
  · rw [hcur] at e; cases e
  · obtain ⟨cs, h1, h2, h3⟩ := e3.disk d ps hd
    exact ⟨cs, h1.withSize, h2.withSize, h3⟩
  · unfold Since
    rw [hcur]
  · rw [hcur] at e; cases e

/-- The last step of `flushSteps` is what `flush` does. -/
theorem flushSteps_last (C : Cfg) (x : Index) (fs : FS) : Index.flush C x fs = (Index.flushSteps C x fs).bind fun l => .ok (l.getLastD fs) := by
  unfold Index.flush Index.flushSteps
  cases x.all <;> rfl

/-- **C103.** Why C103 is partial: when a program closes a library (or clears its cache) it writes the index file again, also if it only read. Any program that opens the library after the file was emptied and before it is
    written does not succeed. -/
theorem C103_open_during_close_fails (C C' : Cfg) (S' : Tree.Sorter) (x : Index) (fs : FS) (l : List FS) (h : Index.flushSteps C x fs = .ok l) (init : List Nat) :
    ∀ g ∈ l.head?, ∀ lib, Lib.open C' S' g x.dir init ≠ .ok lib := by
  obtain ⟨ms, _, h⟩ := Res.bind_eq_ok.1 h
  have h := Res.ok.inj h
  subst h
  intro g hg lib hl
  have hg : fs.set (x.dir, .index) (some []) = g := Option.some.inj hg
  subst hg
  unfold Lib.open at hl
  obtain ⟨y, hy, _⟩ := Res.bind_eq_ok.1 hl
  unfold Index.open loadEntries at hy
  simp only [FS.set, if_true] at hy
  obtain ⟨ms', hm, _⟩ := Res.bind_eq_ok.1 hy
  obtain ⟨r, hr, _⟩ := Res.bind_eq_ok.1 hm
  have hr : ((u64 C'.hst).deser [] |>.bind fun r => deserN (metaCodec C'.hst C'.dims) r.1 r.2) = .ok r := hr
  obtain ⟨q, hq, _⟩ := Res.bind_eq_ok.1 hr
  cases hq

namespace Ex103

/-- The calls of the two programs; both read the library in directory 0. -/
def first : List LOp := [.open 0 [1, 1], .get [2, 1], .get [1, 1], .close]
def second : List LOp := [.open 0 [1, 1], .get [1, 1], .close, .open 0 [1, 1], .get [2, 1], .close]
def σ : List (Nat × LOp) :=
  [(0, .open 0 [1, 1]), (1, .open 0 [1, 1]), (1, .get [1, 1]), (0, .get [2, 1]), (1, .close), (0, .get [1, 1]), (1, .open 0 [1, 1]), (0, .close), (1, .get [2, 1]), (1, .close)]

theorem of0 : ofProg 0 σ = first := rfl
theorem of1 : ofProg 1 σ = second := rfl
theorem ofMore (k : Nat) : ofProg (k + 2) σ = [] := by
  unfold ofProg
  rw [List.map_eq_nil_iff, List.filter_eq_nil_iff]
  intro e he
  have h : ∀ e ∈ σ, e.1 < 2 := by simp [σ]
  have := h e he
  simp only [decide_eq_true_eq]
  omega

/-- The world after the writing program. -/
def W : World := (World.init fun _ => none).run (Ex.cfg 1) (Ex.hist.take 8)

theorem first_legal : AllLegal { Ex.cfg 1 with size := 1 } W first := by
  refine ⟨⟨rfl, by decide⟩,
    ⟨_, _, rfl, List.mem_cons_self, Ex.inBox2 (n := 3) (m := 2) (by decide) (by decide), fun _ => rfl⟩,
    ⟨_, _, rfl, List.mem_cons_self, Ex.inBox2 (n := 3) (m := 2) (by decide) (by decide), fun _ => rfl⟩, ⟨_, rfl⟩, trivial⟩

theorem second_legal : AllLegal { Ex.cfg 1 with size := 2 } W second := by
  refine ⟨⟨rfl, by decide⟩, ⟨_, _, rfl, List.mem_cons_self, Ex.inBox2 (n := 3) (m := 2) (by decide) (by decide), fun _ => rfl⟩, ⟨_, rfl⟩,
    ⟨rfl, by decide⟩, ⟨_, _, rfl, List.mem_cons_self, Ex.inBox2 (n := 3) (m := 2) (by decide) (by decide), fun _ => rfl⟩, ⟨_, rfl⟩, trivial⟩

theorem reads : ∀ k op, (k, op) ∈ σ → op.ReadsFrom W := by
  have h0 : W.disk 0 ≠ none := fun h => by cases h
  have h : ∀ e ∈ σ, e.2.ReadsFrom W := by simp [σ, LOp.ReadsFrom, LOp.Reads, h0]
  exact fun k op hk => h (k, op) hk

/-- All hypotheses are met: a library is written, then two programs, the second one with a larger cache, read it at the same time. -/
example : ∃ st0 rs0 st r, MState.run (Ex.cfg 1) Tree.Ex.S ⟨none, fun _ => none⟩ (Ex.hist.take 8) = .ok (st0, rs0) ∧
    Many.run (fun k => { Ex.cfg 1 with size := if k = 1 then 2 else 1 }) (fun _ => Tree.Ex.S) ⟨st0.fs, fun _ => none⟩ σ = .ok (st, r) ∧ st.fs = st0.fs ∧
      ∀ k, AllAnswer { Ex.cfg 1 with size := if k = 1 then 2 else 1 } W (ofProg k σ) (ofProg k r) := by
  obtain ⟨st0, rs0, e1, e2⟩ := C103_readers_partial (Ex.cfg 1) (Ex.cfg_ok 1) Tree.Ex.S Tree.Ex.Z (fun _ => none) (fun _ => rfl) (Ex.hist.take 8) (Ex.hist_take 8) rfl
  obtain ⟨st, r, f1, f2, f3⟩ := e2 (fun k => if k = 1 then 2 else 1) (fun _ => Tree.Ex.S) σ reads (fun k => match k with
    | 0 => by rw [of0]; exact first_legal
    | 1 => by rw [of1]; exact second_legal
    | k + 2 => by rw [ofMore]; trivial)
  exact ⟨st0, rs0, st, r, e1, f1, f2, f3⟩

/-- The hypothesis of `C103_open_during_close_fails` is met: after program 0 opened the library of the history, closing it first leaves an empty index file. -/
example : (match MState.run (Ex.cfg 1) Tree.Ex.S ⟨none, fun _ => none⟩ (Ex.hist.take 8 ++ first.take 2) with
    | .ok (⟨some lib, fs⟩, _) => (match Index.flushSteps (Ex.cfg 1) lib.idx fs with
        | .ok [g, g'] => decide (g (0, .index) = some [] ∧ g' (0, .index) = fs (0, .index) ∧ g' (0, .index) ≠ none)
        | _ => false)
    | _ => false) = true := by decide +kernel

end Ex103
end Verif.Dist
