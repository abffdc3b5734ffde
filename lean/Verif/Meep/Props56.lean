import Verif.Meep.Jobs
/-
C56 (the merged result of a parallel calculation holds the field of every process at its place).
-/
namespace Verif.Meep
open Verif Verif.ND Verif.Dist Verif.Tree Verif.Ops

variable {C : Cfg} {S : Sorter} {Z : SlabSize} {T L : Nat} {ds : List Nat} {N : Nat}

/-! ### The exchanged shape -/

theorem prod_set : ∀ {e : List Nat} {k t : Nat}, k < e.length → e.getD k 0 * prod (e.set k t) = t * prod e
  | [], _, _, h => by cases h
  | x :: e, 0, t, _ => by
      show x * (t * prod e) = t * (x * prod e)
      rw [← Nat.mul_assoc, ← Nat.mul_assoc, Nat.mul_comm x t]
  | x :: e, k + 1, t, h => by
      show e.getD k 0 * (x * prod (e.set k t)) = t * (x * prod e)
      have := prod_set (e := e) (k := k) (t := t) (by simpa using h)
      rw [← Nat.mul_assoc, Nat.mul_comm (e.getD k 0) x, Nat.mul_assoc, this, ← Nat.mul_assoc, ← Nat.mul_assoc, Nat.mul_comm x t]

theorem swapAt_cons (t : Nat) (e : List Nat) (k : Nat) : swapAt (t :: e) 0 (k + 1) = e.getD k 0 :: e.set k t := rfl

theorem fit_swap (hC : C.Ok) {uuid : Nat → Nat → Nat → List Nat} {cs : List SimChunk} {fld : Nat → Nat → List Nat} (h : SimOk C T L ds uuid cs fld N) (hv : max T L ^ ds.length < 2 ^ 32)
    {t : Nat} {e : List Nat} (ht : t ≤ T) (he : e.length = ds.length) (hL : ∀ y ∈ e, y ≤ L) : Fit C (swapAt (t :: e) 0 ds.length) := by
  obtain ⟨v1, v2, v3, v4⟩ := h.vol
  have hdims := h.dims
  have hprod := prod_le_pow hL
  rw [he] at hprod
  have hvol : volume C.vd (t :: e) < 2 ^ 62 := by
    rw [volume_eq, prod]
    have : t * prod e * C.vd ≤ T * L ^ ds.length * C.vd := Nat.mul_le_mul_right _ (Nat.mul_le_mul ht hprod)
    omega
  have hmem : ∀ x ∈ swapAt (t :: e) 0 ds.length, x ≤ max T L := by
    intro x hx
    obtain ⟨d, hd, rfl⟩ := List.getElem_of_mem hx
    have h1 : (swapAt (t :: e) 0 ds.length).getD d 0 = (swapAt (t :: e) 0 ds.length)[d] := by
      rw [List.getD_eq_getElem?_getD, List.getElem?_eq_getElem hd]; rfl
    rw [← h1, getD_swapAt (by simp) (by simp [he])]
    generalize (if d = 0 then ds.length else if d = ds.length then 0 else d) = k
    cases k with
    | zero => show t ≤ _; omega
    | succ k =>
      simp only [List.getD_cons_succ]
      rw [List.getD_eq_getElem?_getD]
      by_cases hk : k < e.length
      · rw [List.getElem?_eq_getElem hk]
        have := hL _ (List.getElem_mem hk)
        show e[k] ≤ _
        omega
      · rw [List.getElem?_eq_none (by omega)]; exact Nat.zero_le _
  have hlen : (swapAt (t :: e) 0 ds.length).length = ds.length + 1 := by rw [length_swapAt, List.length_cons, he]
  have hp : prod (swapAt (t :: e) 0 ds.length) = prod (t :: e) := by
    rw [← he]
    cases hk : e.length with
    | zero =>
      have : e = [] := List.eq_nil_of_length_eq_zero hk
      subst this; rfl
    | succ k => rw [swapAt_cons, prod, prod_set (by omega)]; rfl
  refine ⟨by rw [hlen]; exact hdims.symm, fun x hx => ?_, ?_, ?_, ?_, ?_⟩
  · have := hmem x hx; omega
  · rw [volume_eq] at hvol ⊢; rw [hp]; exact hvol
  · rw [h.stream]; exact Nat.one_dvd _
  · intro d hd0 hd
    left
    have hx : (swapAt (t :: e) 0 ds.length).getD d 0 ≤ max T L := by
      rw [List.getD_eq_getElem?_getD, List.getElem?_eq_getElem (by omega)]
      exact hmem _ (List.getElem_mem _)
    cases d with
    | zero => omega
    | succ d =>
      rw [h.stream]
      simp only [List.getD_cons_succ]
      have : (List.replicate ds.length (2 ^ 64 - 1)).getD d 0 = 2 ^ 64 - 1 := by
        rw [List.getD_eq_getElem?_getD, List.getElem?_replicate, if_pos (by omega)]; rfl
      rw [this]
      omega
  · rw [h.stream, numElems_eq]
    have h1 := prod_le_pow (e := (swapAt (t :: e) 0 ds.length).tail) (L := max T L) (fun y hy => hmem y (List.mem_of_mem_tail hy))
    rw [List.length_tail, hlen] at h1
    show 1 * _ < _
    simp only [Nat.add_sub_cancel] at h1
    omega

/-! ### One job -/

/-- The chunks of a finished job in its output directory. -/
structure JobDone (C : Cfg) (ds : List Nat) (N : Nat) (jb : Job) (w : World) (ps : List Piece) : Prop where
  disk : w.disk jb.out = some ps
  stores : Stores ps (FieldAt C ds N jb)
  file : ∀ p ∈ ps, ∃ n r b, p.file = jb.uuid n r b
  names : ∀ n, w.names jb.out n → ∃ k r b, n = jb.uuid k r b
  len : ps.length ≤ N * (jb.cs.map fun c => numElems c.shape).sum

theorem job_ok (hC : C.Ok) {jb : Job} (h : SimOk C T L ds jb.uuid jb.cs jb.fld N) (hv : max T L ^ ds.length < 2 ^ 32) (hne : jb.work ≠ jb.out) {st : MState} {w : World} (hw : WInv C S Z st w)
    (hcur : w.cur = none) (hd1 : w.disk jb.work = none) (hd2 : w.disk jb.out = none) (hn1 : ∀ n, ¬ w.names jb.work n) (hn2 : ∀ n, ¬ w.names jb.out n) (init : List Nat) (proc chunk : Arr) :
    ∃ st' w' ps, job C S T L ds N init proc chunk jb st = .ok st' ∧ WInv C S Z st' w' ∧ w'.cur = none ∧ JobDone C ds N jb w' ps ∧
      (∀ d, d ≠ jb.work → d ≠ jb.out → w'.disk d = w.disk d ∧ w'.names d = w.names d) ∧ w'.disk jb.work = none := by
  have hK := h.cols hC
  -- opening
  have ho : (w.next C (.open jb.work init)).cur = some ⟨jb.work, 0, []⟩ := by
    show some _ = _
    rw [hd1]; rfl
  obtain ⟨st0, r0, o1, o2, o3⟩ := runW_ok hC [.open jb.work init] hw ⟨⟨hcur, by rw [hd1]; show ([] : List Piece).length < 2 ^ 64; decide⟩, trivial⟩
  -- storing
  obtain ⟨l1, l, hs⟩ := sinv_all hK (sinv_begin (C := C) h.posT ho) N (Nat.le_refl N)
  obtain ⟨st1, r1, s1, s2, s3⟩ := runW_ok hC _ o3 l1
  have s3' : WInv C S Z st1 ((w.next C (.open jb.work init)).run C ((Kof C L ds jb.uuid jb.cs jb.fld).all T N)) := s3
  obtain ⟨q, g1, g2⟩ := h.simulate hC (S := S) ⟨proc, chunk, st0⟩ s1
  obtain ⟨k1, k2, k3⟩ := writes_run (C := C) _ (kof_writes (C := C) (T := T) (L := L) (ds := ds) (uuid := jb.uuid) (cs := jb.cs) (fld := jb.fld) N) ho
  have hdir : l.dir = jb.work := hs.dir
  obtain ⟨hst, hfl, hsh, hcount⟩ := hs.stores hC h
  generalize hw1 : (w.next C (.open jb.work init)).run C ((Kof C L ds jb.uuid jb.cs jb.fld).all T N) = w1 at *
  have hcur1 : w1.cur = some l := hs.cur
  have hdisk1 : ∀ d, w1.disk d = if d = jb.work then none else w.disk d := by
    intro d
    rw [k1]
    rfl
  have hnames1 : ∀ d, d ≠ jb.work → w1.names d = w.names d := fun d hd => k2 d hd
  have hnames2 : ∀ n, w1.names jb.work n → ∃ k r b, n = jb.uuid k r b := fun n hn => (k3 n hn).resolve_left (hn1 n)
  -- the rest
  have hdims := h.dims
  let w2 : World := ⟨some ⟨l.dir, l.next, l.pieces.map fun p => p.swap 0 ds.length⟩, w1.disk, w1.names⟩
  let w3 : World := ⟨some ⟨jb.out, l.next, l.pieces.map fun p => p.swap 0 ds.length⟩, w1.disk, upd (upd w1.names l.dir fun _ => False) jb.out fun n => w1.names jb.out n ∨ w1.names l.dir n⟩
  let w4 : World := ⟨none, upd w1.disk jb.out (some (l.pieces.map fun p => p.swap 0 ds.length)), w3.names⟩
  have e2 : w1.next C (.swap 0 ds.length) = w2 := by unfold World.next; rw [hcur1]
  have e3 : w2.next C (.move jb.out) = w3 := rfl
  have e4 : w3.next C .close = w4 := rfl
  have hleg : AllLegal C w1 [.swap 0 ds.length, .move jb.out, .close] := by
    refine ⟨⟨l, hcur1, by omega, by omega, fun p hp => ?_⟩, ?_, ?_, trivial⟩
    · obtain ⟨p1, p2, t, e, he, ht0, ht, hel, hL, ho⟩ := hsh p hp
      have : p.shape = t :: e := by unfold Piece.shape; rw [he, ho]; simp
      rw [this]
      exact fit_swap hC h hv ht hel hL
    · rw [e2]
      refine ⟨_, rfl, ?_, ?_⟩
      · show jb.out ≠ l.dir
        rw [hdir]; exact fun e => hne e.symm
      · show w1.disk jb.out = none
        rw [hdisk1, if_neg (fun e => hne e.symm)]; exact hd2
    · rw [e2, e3]
      exact ⟨_, rfl⟩
  obtain ⟨st2, r2, f1, f2, f3⟩ := runW_ok hC _ s3' hleg
  have hrun : w1.run C [.swap 0 ds.length, .move jb.out, .close] = w4 := by
    show ((w1.next C _).next C _).next C _ = _
    rw [e2, e3, e4]
  rw [hrun] at f3
  refine ⟨st2, w4, l.pieces.map fun p => p.swap 0 ds.length, ?_, f3, rfl, ⟨?_, hst, ?_, ?_, ?_⟩, ?_, ?_⟩
  · unfold job
    rw [o1]
    simp only [Res.ok_bind]
    rw [g1]
    simp only [Res.ok_bind]
    rw [g2, f1]
    rfl
  · show upd w1.disk jb.out _ jb.out = _
    unfold upd; rw [if_pos rfl]
  · intro p hp
    obtain ⟨p', hp', rfl⟩ := List.mem_map.1 hp
    exact hfl p' hp'
  · intro n hn
    have hn' : upd (upd w1.names l.dir fun _ => False) jb.out (fun n => w1.names jb.out n ∨ w1.names l.dir n) jb.out n := hn
    unfold upd at hn'
    rw [if_pos rfl, hdir, hnames1 _ (fun e => hne e.symm)] at hn'
    rcases hn' with hn' | hn'
    · exact absurd hn' (hn2 n)
    · exact hnames2 n hn'
  · rw [List.length_map]; exact hcount
  · intro d hd1' hd2'
    constructor
    · show upd w1.disk jb.out _ d = _
      unfold upd
      rw [if_neg hd2', hdisk1, if_neg hd1']
    · show upd (upd w1.names l.dir fun _ => False) jb.out _ d = _
      unfold upd
      rw [if_neg hd2', if_neg (by rw [hdir]; exact hd1'), hnames1 d hd1']
  · show upd w1.disk jb.out _ jb.work = _
    unfold upd
    rw [if_neg hne, hdisk1, if_pos rfl]

/-! ### All jobs -/

/-- Conditions on the jobs that have not run yet. -/
structure Todo (jobs : List Job) (w : World) : Prop where
  disk : ∀ j ∈ jobs, w.disk j.work = none ∧ w.disk j.out = none
  names : ∀ j ∈ jobs, ∀ n, ¬ w.names j.work n ∧ ¬ w.names j.out n

theorem JobDone.frame {jb : Job} {w w' : World} {ps : List Piece} (h : JobDone C ds N jb w ps) (hd : w'.disk jb.out = w.disk jb.out) (hn : w'.names jb.out = w.names jb.out) :
    JobDone C ds N jb w' ps := ⟨by rw [hd]; exact h.disk, h.stores, h.file, by rw [hn]; exact h.names, h.len⟩

theorem jobs_ok (hC : C.Ok) (init : List Nat) (proc chunk : Arr) (hv : max T L ^ ds.length < 2 ^ 32) : ∀ (jobs : List Job),
    (∀ j ∈ jobs, SimOk C T L ds j.uuid j.cs j.fld N) →
    (jobs.Pairwise fun j j' => j.work ≠ j'.work ∧ j.work ≠ j'.out ∧ j.out ≠ j'.work ∧ j.out ≠ j'.out) → (∀ j ∈ jobs, j.work ≠ j.out) →
    ∀ {st : MState} {w : World}, WInv C S Z st w → w.cur = none → Todo jobs w →
    ∃ st' w', runLoop (job C S T L ds N init proc chunk) jobs st = .ok st' ∧ WInv C S Z st' w' ∧ w'.cur = none ∧ (∀ j ∈ jobs, ∃ ps, JobDone C ds N j w' ps) ∧
      ∀ d, (∀ j ∈ jobs, d ≠ j.work ∧ d ≠ j.out) → w'.disk d = w.disk d ∧ w'.names d = w.names d
  | [], _, _, _, st, w, hw, hc, _ => ⟨st, w, rfl, hw, hc, fun j hj => (by cases hj), fun _ _ => ⟨rfl, rfl⟩⟩
  | j :: jobs, hsim, hdirs, hown, st, w, hw, hc, ht => by
      obtain ⟨d1, d2⟩ := List.pairwise_cons.1 hdirs
      obtain ⟨t1, t2⟩ := ht.disk j (by simp)
      obtain ⟨st1, w1, ps, a1, a2, a3, a4, a5, a6⟩ := job_ok (S := S) (Z := Z) hC (hsim j (by simp)) hv (hown j (by simp)) hw hc t1 t2 (fun n => (ht.names j (by simp) n).1)
        (fun n => (ht.names j (by simp) n).2) init proc chunk
      have hfr : ∀ j' ∈ jobs, (w1.disk j'.work = w.disk j'.work ∧ w1.names j'.work = w.names j'.work) ∧ (w1.disk j'.out = w.disk j'.out ∧ w1.names j'.out = w.names j'.out) := by
        intro j' hj'
        obtain ⟨x1, x2, x3, x4⟩ := d1 j' hj'
        exact ⟨a5 _ (fun e => x1 e.symm) (fun e => x3 e.symm), a5 _ (fun e => x2 e.symm) (fun e => x4 e.symm)⟩
      have ht1 : Todo jobs w1 := by
        refine ⟨fun j' hj' => ?_, fun j' hj' n => ?_⟩
        · obtain ⟨f1, f2⟩ := hfr j' hj'
          rw [f1.1, f2.1]; exact ht.disk j' (by simp [hj'])
        · obtain ⟨f1, f2⟩ := hfr j' hj'
          rw [f1.2, f2.2]; exact ht.names j' (by simp [hj']) n
      obtain ⟨st2, w2, b1, b2, b3, b4, b5⟩ := jobs_ok hC init proc chunk hv jobs (fun j' hj' => hsim j' (by simp [hj'])) d2 (fun j' hj' => hown j' (by simp [hj'])) a2 a3 ht1
      refine ⟨st2, w2, by simp only [runLoop, a1, Res.ok_bind, b1], b2, b3, ?_, ?_⟩
      · intro j' hj'
        rcases List.mem_cons.1 hj' with rfl | hj'
        · obtain ⟨f1, f2⟩ := b5 j'.out fun j'' hj'' => ⟨(d1 j'' hj'').2.2.1, (d1 j'' hj'').2.2.2⟩
          exact ⟨ps, a4.frame f1 f2⟩
        · exact b4 j' hj'
      · intro d hd
        obtain ⟨f1, f2⟩ := b5 d fun j' hj' => hd j' (by simp [hj'])
        obtain ⟨f3, f4⟩ := a5 d (hd j (by simp)).1 (hd j (by simp)).2
        exact ⟨f1.trans f3, f2.trans f4⟩

/-! ### Merging -/

theorem Stores.renumbered {ps : List Piece} {F : List Nat → List Nat → Prop} (h : Stores ps F) (n : Nat) : Stores (renumbered n ps) F := by
  refine ⟨fun i u hF => ?_, fun p hp i hi => ?_⟩
  · obtain ⟨p, hp, h1, h2⟩ := h.has i u hF
    obtain ⟨k, hk⟩ := List.getElem?_of_mem hp
    exact ⟨{ p with id := n + k }, List.mem_map.2 ⟨(p, k), List.mem_zipIdx_iff_getElem?.2 hk, rfl⟩, h1, h2⟩
  · obtain ⟨⟨p', k⟩, hp', rfl⟩ := List.mem_map.1 hp
    exact h.only p' (List.fst_mem_of_mem_zipIdx hp') i hi

theorem mem_renumbered {ps : List Piece} {n : Nat} {p : Piece} (h : p ∈ renumbered n ps) : n ≤ p.id ∧ p.id < n + ps.length ∧ ∃ p' ∈ ps, p'.file = p.file ∧ p'.start = p.start ∧ p'.stop = p.stop := by
  obtain ⟨⟨p', k⟩, hp', rfl⟩ := List.mem_map.1 h
  have hk := lt_of_get? (List.mem_zipIdx_iff_getElem?.1 hp')
  exact ⟨by simp, by simpa using hk, p', List.fst_mem_of_mem_zipIdx hp', rfl, rfl, rfl⟩

/-- The elements of several jobs. -/
def FieldsAt (C : Cfg) (ds : List Nat) (N : Nat) (jobs : List Job) (i u : List Nat) : Prop := ∃ j ∈ jobs, FieldAt C ds N j i u

/-- The library while the jobs `done` have been merged. -/
structure Merged (C : Cfg) (ds : List Nat) (N : Nat) (done : List Job) (l : LibSpec) : Prop where
  stores : Stores l.pieces (FieldsAt C ds N done)
  file : ∀ p ∈ l.pieces, ∃ j ∈ done, ∃ n r b, p.file = j.uuid n r b
  ids : ∀ p ∈ l.pieces, p.id < l.next
  len : l.pieces.length = l.next
  next : l.next ≤ (done.map fun j => N * (j.cs.map fun c => numElems c.shape).sum).sum

theorem fieldAt_apart {j j' : Job} (h : ∀ c ∈ j.cs, ∀ c' ∈ j'.cs, DisjointBox c.start (addVec c.start c.shape) c'.start (addVec c'.start c'.shape)) {i u u' : List Nat}
    (h1 : FieldAt C ds N j i u) (h2 : FieldAt C ds N j' i u') : False := by
  obtain ⟨n, r, c, k, _, hr, hl, hk, e, _⟩ := h1
  obtain ⟨n', r', c', k', _, hr', hl', hk', e', _⟩ := h2
  rw [e] at e'
  have : swapAt (swapAt (n :: k) 0 ds.length) 0 ds.length = swapAt (swapAt (n' :: k') 0 ds.length) 0 ds.length := by rw [e']
  rw [swapAt_swapAt (by simp) (by simp [hl]), swapAt_swapAt (by simp) (by simp [hl'])] at this
  injection this with _ e2
  subst e2
  exact h c (List.mem_of_getElem? hr) c' (List.mem_of_getElem? hr') _ ⟨hk, hk'⟩

theorem merge_loop (hC : C.Ok) (out : Nat) : ∀ (jobs done : List Job),
    (done ++ jobs).Pairwise (fun j j' => ∀ c ∈ j.cs, ∀ c' ∈ j'.cs, DisjointBox c.start (addVec c.start c.shape) c'.start (addVec c'.start c'.shape)) →
    (done ++ jobs).Pairwise (fun j j' => ∀ n r b n' r' b', j.uuid n r b ≠ j'.uuid n' r' b') →
    jobs.Pairwise (fun j j' => j.out ≠ j'.out) → (∀ j ∈ jobs, j.out ≠ out) →
    ((done ++ jobs).map fun j => N * (j.cs.map fun c => numElems c.shape).sum).sum + 1 < 2 ^ 64 →
    ∀ {w : World} {l : LibSpec}, w.cur = some l → l.dir = out → Merged C ds N done l → (∀ j ∈ jobs, ∃ ps, JobDone C ds N j w ps) →
    AllLegal C w (jobs.map fun j => .import j.out true) ∧ ∃ l', (w.run C (jobs.map fun j => .import j.out true)).cur = some l' ∧ l'.dir = out ∧ Merged C ds N (done ++ jobs) l'
  | [], done, _, _, _, _, _, w, l, hc, hd, hm, _ => ⟨trivial, l, hc, hd, by rw [List.append_nil]; exact hm⟩
  | j :: jobs, done, hap, hnm, hdr, hout, htot, w, l, hc, hd, hm, hj => by
      obtain ⟨ps, hps⟩ := hj j (by simp)
      obtain ⟨d1, d2⟩ := List.pairwise_cons.1 hdr
      have hap' := List.pairwise_append.1 hap
      have hnm' := List.pairwise_append.1 hnm
      have hto : (done.map fun j => N * (j.cs.map fun c => numElems c.shape).sum).sum + N * (j.cs.map fun c => numElems c.shape).sum ≤
          ((done ++ j :: jobs).map fun j => N * (j.cs.map fun c => numElems c.shape).sum).sum := by
        rw [List.map_append, List.sum_append, List.map_cons, List.sum_cons]
        omega
      have hcan : CanImport w l j.out ps := by
        refine ⟨by rw [hd]; exact hout j (by simp), hps.disk, hm.ids, ?_, ?_, ?_⟩
        · have h1 := hm.next
          have h2 := hps.len
          omega
        · intro p hp p' hp' i hi
          obtain ⟨u, j', hj', hu⟩ := hm.stores.only p hp i hi.1
          obtain ⟨u', hu'⟩ := hps.stores.only p' hp' i hi.2
          exact fieldAt_apart (hap'.2.2 j' hj' j (by simp)) hu hu'
        · intro p hp _ hn
          obtain ⟨j', hj', n, r, b, hf⟩ := hm.file p hp
          obtain ⟨n', r', b', hf'⟩ := hps.names _ hn
          rw [hf] at hf'
          exact hnm'.2.2 j' hj' j (by simp) _ _ _ _ _ _ hf'
      have hnext : w.next C (.import j.out true) = ⟨some ⟨l.dir, l.next + ps.length, l.pieces ++ renumbered l.next ps⟩, upd w.disk j.out none,
          upd (upd w.names j.out fun _ => False) l.dir fun n => w.names l.dir n ∨ w.names j.out n⟩ := by
        unfold World.next
        rw [hc]
        simp only [hps.disk, Option.getD_some, if_pos]
      have hm1 : Merged C ds N (done ++ [j]) ⟨l.dir, l.next + ps.length, l.pieces ++ renumbered l.next ps⟩ := by
        have hrn := hps.stores.renumbered l.next
        refine ⟨⟨?_, ?_⟩, ?_, ?_, by simp [renumbered, hm.len], ?_⟩
        · rintro i u ⟨j', hj', hu⟩
          rcases List.mem_append.1 hj' with hj' | hj'
          · obtain ⟨p, hp, h1, h2⟩ := hm.stores.has i u ⟨j', hj', hu⟩
            exact ⟨p, List.mem_append.2 (Or.inl hp), h1, h2⟩
          · have : j' = j := by simpa using hj'
            subst this
            obtain ⟨p, hp, h1, h2⟩ := hrn.has i u hu
            exact ⟨p, List.mem_append.2 (Or.inr hp), h1, h2⟩
        · intro p hp i hi
          rcases List.mem_append.1 hp with hp | hp
          · obtain ⟨u, j', hj', hu⟩ := hm.stores.only p hp i hi
            exact ⟨u, j', by simp [hj'], hu⟩
          · obtain ⟨u, hu⟩ := hrn.only p hp i hi
            exact ⟨u, j, by simp, hu⟩
        · intro p hp
          rcases List.mem_append.1 hp with hp | hp
          · obtain ⟨j', hj', hf⟩ := hm.file p hp
            exact ⟨j', by simp [hj'], hf⟩
          · obtain ⟨_, _, p', hp', hf, _⟩ := mem_renumbered hp
            obtain ⟨n, r, b, hf'⟩ := hps.file p' hp'
            exact ⟨j, by simp, n, r, b, hf.symm.trans hf'⟩
        · intro p hp
          show p.id < l.next + ps.length
          rcases List.mem_append.1 hp with hp | hp
          · have := hm.ids p hp; omega
          · exact (mem_renumbered hp).2.1
        · show l.next + ps.length ≤ _
          rw [List.map_append, List.sum_append]
          have h1 := hm.next
          have h2 := hps.len
          simp only [List.map_cons, List.map_nil, List.sum_cons, List.sum_nil]
          omega
      have hcur1 : (w.next C (.import j.out true)).cur = some ⟨l.dir, l.next + ps.length, l.pieces ++ renumbered l.next ps⟩ := by rw [hnext]
      have hj1 : ∀ j' ∈ jobs, ∃ ps, JobDone C ds N j' (w.next C (.import j.out true)) ps := by
        intro j' hj'
        obtain ⟨ps', hps'⟩ := hj j' (by simp [hj'])
        have hne := d1 j' hj'
        have hno := hout j' (by simp [hj'])
        refine ⟨ps', hps'.frame ?_ ?_⟩
        · rw [hnext]
          show upd w.disk j.out none j'.out = _
          unfold upd; rw [if_neg (fun e => hne e.symm)]
        · rw [hnext]
          show upd (upd w.names j.out fun _ => False) l.dir _ j'.out = _
          unfold upd; rw [if_neg (by rw [hd]; exact hno), if_neg (fun e => hne e.symm)]
      have happ : done ++ j :: jobs = (done ++ [j]) ++ jobs := by simp
      rw [happ] at hap hnm htot
      obtain ⟨r1, l', r2, r3, r4⟩ := merge_loop hC out jobs (done ++ [j]) hap hnm d2 (fun j' hj' => hout j' (by simp [hj'])) htot hcur1 hd hm1 hj1
      refine ⟨⟨⟨l, ps, hc, hcan⟩, r1⟩, l', r2, r3, ?_⟩
      rw [happ]; exact r4

/-- After all jobs and the merging. -/
theorem merged_ok (hC : C.Ok) {fs : FS} {out : Nat} (init : List Nat) (proc chunk : Arr) {jobs : List Job} (h : JobsOk C T L ds N out fs jobs) :
    ∃ st1 st2 w3 l, runLoop (job C S T L ds N init proc chunk) jobs ⟨none, fs⟩ = .ok st1 ∧ mergeJobs C S init out (jobs.map fun j => j.out) st1 = .ok st2 ∧
      WInv C S Z st2 w3 ∧ w3.cur = none ∧ w3.disk out = some l.pieces ∧ Merged C ds N jobs l ∧ l.pieces.length < 2 ^ 64 ∧ ∀ p ∈ l.pieces, p.Plain := by
  obtain ⟨st1, w1, a1, a2, a3, a4, a5⟩ := jobs_ok (S := S) (Z := Z) hC init proc chunk h.vol jobs h.sim h.dirs (fun j hj => (h.own j hj).1) (WInv.init h.index) rfl
    ⟨fun j hj => ⟨rfl, rfl⟩, fun j hj n => ⟨fun e => e (h.clean j hj n).1, fun e => e (h.clean j hj n).2⟩⟩
  have hdo : w1.disk out = none := (a5 out fun j hj => ⟨(h.own j hj).2.2, fun e => (h.own j hj).2.1 e.symm⟩).1
  -- merging
  let w2 : World := { w1 with cur := some ⟨out, 0, []⟩, disk := upd w1.disk out none }
  have e2 : w1.next C (.open out init) = w2 := by
    show { w1 with cur := some ⟨out, 0, (w1.disk out).getD []⟩, disk := upd w1.disk out none } = w2
    rw [hdo]; rfl
  have hj2 : ∀ j ∈ jobs, ∃ ps, JobDone C ds N j w2 ps := by
    intro j hj
    obtain ⟨ps, hps⟩ := a4 j hj
    refine ⟨ps, hps.frame ?_ rfl⟩
    show upd w1.disk out none j.out = _
    unfold upd; rw [if_neg (h.own j hj).2.1]
  have hm0 : Merged C ds N [] ⟨out, 0, []⟩ := by
    refine ⟨⟨?_, fun p hp => (by cases hp)⟩, fun p hp => (by cases hp), fun p hp => (by cases hp), rfl, Nat.zero_le _⟩
    rintro i u ⟨j, hj, _⟩
    cases hj
  obtain ⟨r1, l, r2, r3, r4⟩ := merge_loop (C := C) (ds := ds) (N := N) hC out jobs [] h.apart h.names (h.dirs.imp fun x => x.2.2.2) (fun j hj => (h.own j hj).2.1) h.total
    (w := w2) (l := ⟨out, 0, []⟩) rfl rfl hm0 hj2
  have hops : (LOp.open out init :: (((jobs.map fun j => j.out).map fun d => LOp.import d true) ++ [.close])) = (.open out init :: (jobs.map fun j => .import j.out true)) ++ [.close] := by
    rw [List.map_map]; rfl
  have hleg : AllLegal C w1 ((.open out init :: (jobs.map fun j => .import j.out true)) ++ [.close]) := by
    rw [AllLegal.append]
    refine ⟨⟨⟨a3, by rw [hdo]; show ([] : List Piece).length < 2 ^ 64; decide⟩, by rw [e2]; exact r1⟩, ⟨l, ?_⟩, trivial⟩
    show ((w1.next C (.open out init)).run C _).cur = _
    rw [e2]; exact r2
  obtain ⟨st2, rs, f1, f2, f3⟩ := runW_ok (S := S) (Z := Z) hC _ a2 hleg
  have hw3 : (w1.run C ((.open out init :: (jobs.map fun j => .import j.out true)) ++ [.close])) =
      { (w2.run C (jobs.map fun j => .import j.out true)) with cur := none, disk := upd (w2.run C (jobs.map fun j => .import j.out true)).disk out (some l.pieces) } := by
    rw [World.run_append]
    show World.next C ((w1.next C (.open out init)).run C _) .close = _
    rw [e2]
    unfold World.next
    rw [r2, ← r3]
  rw [hw3] at f3
  generalize hw3' : ({ (w2.run C (jobs.map fun j => .import j.out true)) with cur := none, disk := upd (w2.run C (jobs.map fun j => .import j.out true)).disk out (some l.pieces) } : World) = w3 at f3
  have hd3 : w3.disk out = some l.pieces := by
    rw [← hw3']
    show upd _ out _ out = _
    unfold upd; rw [if_pos rfl]
  have hc3 : w3.cur = none := by rw [← hw3']
  have hm : Merged C ds N jobs l := r4
  have hlen : l.pieces.length < 2 ^ 64 := by
    have h1 := hm.len
    have h2 := hm.next
    have h3 := h.total
    omega
  have hplain : ∀ p ∈ l.pieces, p.Plain := by
    intro p hp hf
    obtain ⟨j, hj, n, r, b, e⟩ := hm.file p hp
    exact absurd (e.symm.trans hf) ((h.sim j hj).name n r b).1
  refine ⟨st1, st2, w3, l, a1, ?_, f3, hc3, hd3, hm, hlen, hplain⟩
  unfold mergeJobs
  rw [List.cons_append, hops, f1]
  rfl

/-- **C56.** For every number of jobs, division of the storage domain, number of steps, chunk sizes, downsampling and fields: all jobs and the merging succeed, and the
    merged library, opened again, holds exactly the elements of the fields, the time as the last index: reading an element returns the element of the field of the job
    that simulates the place, and looping over the elements of any region visits each stored element once and nothing else. -/
theorem C56_merged_jobs (C : Cfg) (hC : C.Ok) (S : Sorter) (Z : SlabSize) (fs : FS) (T L : Nat) (ds : List Nat) (N : Nat) (out : Nat) (init : List Nat) (proc chunk : Arr) (jobs : List Job)
    (h : JobsOk C T L ds N out fs jobs) :
    ∃ st1 st2 st3, runLoop (job C S T L ds N init proc chunk) jobs ⟨none, fs⟩ = .ok st1 ∧ mergeJobs C S init out (jobs.map fun j => j.out) st1 = .ok st2 ∧
      MState.step C S st2 (.open out init) = .ok (st3, .unit) ∧
      (∀ i u, (∃ j ∈ jobs, FieldAt C ds N j i u) → ∃ st v, st3.step C S (.get i) = .ok (st, .vec v) ∧ VEq u v) ∧
      (∀ lo hi, RegOkay C lo hi → ∃ st calls, st3.step C S (.loop lo hi) = .ok (st, .calls calls) ∧ (calls.map Prod.fst).Nodup ∧
        (∀ i, i ∈ calls.map Prod.fst ↔ InBox lo hi i ∧ ∃ u, ∃ j ∈ jobs, FieldAt C ds N j i u) ∧
        ∀ c ∈ calls, ∀ u, (∃ j ∈ jobs, FieldAt C ds N j c.1 u) → VEq u c.2) := by
  obtain ⟨st1, st2, w3, l, a1, f1, f3, hc3, hd3, hm, hlen, hplain⟩ := merged_ok (S := S) (Z := Z) hC init proc chunk h
  -- opening
  obtain ⟨st3, r, g1, g2, g3⟩ := stepW_ok (S := S) (Z := Z) hC f3 (.open out init) ⟨hc3, by rw [hd3]; exact hlen⟩
  have hr : r = .unit := g2
  subst hr
  have hc4 : (w3.next C (.open out init)).cur = some ⟨out, 0, l.pieces⟩ := by
    show some (⟨out, 0, (w3.disk out).getD []⟩ : LibSpec) = _
    rw [hd3]; rfl
  refine ⟨st1, st2, st3, a1, f1, g1, ?_, ?_⟩
  · intro i u hu
    obtain ⟨p, hp, hin, hval⟩ := hm.stores.has i u hu
    obtain ⟨st, o, k1, k2, _⟩ := stepW_ok hC g3 (.get i) ⟨_, p, hc4, hp, hin, hplain p hp⟩
    cases o with
    | vec v =>
      have := k2 _ hc4 p hp hin
      rw [hval] at this
      exact ⟨st, v, k1, this⟩
    | unit => exact k2.elim
    | buf b => exact k2.elim
    | ind b => exact k2.elim
    | num b => exact k2.elim
    | calls b => exact k2.elim
  · intro lo hi hreg
    obtain ⟨st, o, k1, k2, _⟩ := stepW_ok hC g3 (.loop lo hi) ⟨_, hc4, hreg, hplain⟩
    cases o with
    | calls calls =>
      obtain ⟨b1, b2, b3⟩ := k2 _ hc4
      refine ⟨st, calls, k1, b1, fun i => ?_, ?_⟩
      · rw [b2]
        constructor
        · rintro ⟨h1, p, hp, hin⟩
          exact ⟨h1, hm.stores.only p hp i hin⟩
        · rintro ⟨h1, u, hu⟩
          obtain ⟨p, hp, hin, _⟩ := hm.stores.has i u hu
          exact ⟨h1, p, hp, hin⟩
      · intro c hc u hu
        obtain ⟨p, hp, hin, hval⟩ := hm.stores.has c.1 u hu
        have := b3 c hc p hp hin
        rwa [hval] at this
    | vec v => exact k2.elim
    | unit => exact k2.elim
    | buf b => exact k2.elim
    | ind b => exact k2.elim
    | num b => exact k2.elim

/-! ### The hypotheses are met -/

namespace Ex56

/-- Two processes with one simulation chunk each. -/
def jobs : List Job := [⟨1, 2, fun n r b => [0, n, r, b], [⟨[0, 0], [5, 3]⟩], fun n _ => List.replicate 30 (n + 1)⟩,
  ⟨3, 4, fun n r b => [1, n, r, b], [⟨[0, 3], [5, 4]⟩], fun n _ => List.replicate 40 (n + 7)⟩]

theorem sim (k : Nat) (c : SimChunk) (hc : c = ⟨[0, 0], [5, 3]⟩ ∨ c = ⟨[0, 3], [5, 4]⟩) (m x : Nat) (hm : m = volume 2 (1 :: c.shape)) (hx : x < 100) :
    SimOk Ex45.cfg 2 2 [2, 3] (fun n r b => [k, n, r, b]) [c] (fun n _ => List.replicate m (n + x)) 5 := by
  refine ⟨rfl, rfl, by decide, by decide, ?_, ?_, List.pairwise_singleton _ _, ?_, by decide, fun n r b => ⟨by simp, by simp⟩, ?_, by decide, ?_⟩
  · intro c' hc'
    have : c' = c := by simpa using hc'
    subst this
    rcases hc with rfl | rfl <;> exact ⟨rfl, ⟨rfl, rfl⟩, by decide, by decide, by decide⟩
  · intro c' hc'
    have : c' = c := by simpa using hc'
    subst this
    rcases hc with rfl | rfl <;> decide
  · intro n hn r c' hr
    have hw : ∀ w ∈ List.replicate m (n + x), w < 2 ^ 32 := by
      intro w hw
      have := List.eq_of_mem_replicate hw
      omega
    refine ⟨?_, hw⟩
    match r, hr with
    | 0, hr => cases hr; rw [List.length_replicate, hm]; rfl
    | r + 1, hr => simp at hr
  · intro n r b n' r' b' he
    simpa using he
  · rcases hc with rfl | rfl <;> decide

theorem ok : JobsOk Ex45.cfg 2 2 [2, 3] 5 0 (fun _ => none) jobs := by
  refine ⟨?_, ?_, ?_, by decide, by decide, fun _ _ _ => ⟨rfl, rfl⟩, fun _ => rfl, by decide, by decide⟩
  · intro j hj
    rcases (by simpa [jobs] using hj : j = _ ∨ j = _) with rfl | rfl
    · exact sim 0 _ (Or.inl rfl) 30 1 rfl (by decide)
    · exact sim 1 _ (Or.inr rfl) 40 7 rfl (by decide)
  · refine List.Pairwise.cons ?_ (List.pairwise_singleton _ _)
    intro j hj c hc c' hc'
    simp at hj
    subst hj
    simp at hc hc'
    subst hc; subst hc'
    intro i hi
    have h1 := hi.1.2.2 1 (by rw [hi.1.1]; decide)
    have h2 := hi.2.2.2 1 (by rw [hi.2.1]; decide)
    have h3 : i.getD 1 0 < 3 := h1.2
    have h4 : 3 ≤ i.getD 1 0 := h2.1
    omega
  · refine List.Pairwise.cons ?_ (List.pairwise_singleton _ _)
    intro j hj n r b n' r' b' he
    simp at hj
    subst hj
    simp at he

/-- An element of the second job: coarse place (2, 2), that is (4, 6) on the fine grid, at the last time. -/
example : FieldAt Ex45.cfg [2, 3] 5 (jobs.getD 1 ⟨0, 0, fun _ _ _ => [], [], fun _ _ => []⟩) [2, 2, 4] [11, 11] :=
  ⟨4, 0, ⟨[0, 3], [5, 4]⟩, [2, 2], by decide, rfl, rfl, ⟨rfl, rfl, by decide⟩, rfl, by decide +kernel⟩

end Ex56

end Verif.Meep
