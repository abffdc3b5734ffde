import Verif.Green.Interp
import Verif.Dist.Model
/-
Model of `CylindricalGreensFunction::accumulate_inner_product` (GreensFunction.hxx 344-437) and the helpers it uses.

Arithmetic is exact (field `K`).  The chunk library is seen through the two calls the function makes, `m_index.GetChunk` and `m_cache.RetrieveChunk`
(`Library`); `Green/Bridge.lean` shows that the modelled library provides them.
-/
namespace Verif.Green
open Verif Verif.ND Verif.Dist

set_option linter.unusedSectionVars false

variable {K : Type} [Field K] [LinearOrder K] [IsStrictOrderedRing K] [FloorRing K]

/-- The chunk library as `CylindricalGreensFunction` uses it: `find` is `m_index.GetChunk(ind)` (`none` for `nullptr`), `load` is
    `m_cache.RetrieveChunk(meta)`, giving the shape and the data of the chunk's array. `σ` is the state (cache, index, files). -/
structure Library (σ K : Type) where
  find : σ → List Nat → Res (σ × Option Meta)
  load : σ → Meta → Res (σ × List Nat × List K)

/-- GreensFunction.hh 26-31 `CylindricalGreensFunctionMetadata`: start position and sampling interval along (r, z, t). -/
structure GMeta (K : Type) where
  r0 : K
  z0 : K
  t0 : K
  dr : K
  dz : K
  dt : K

/-- GreensFunction.hxx 40-54 `to_chunk_local_ind`, one component. -/
def toLocal (g : K) (off : Nat) : Res K :=
  (toSize (modf g).1).bind fun i => .ok (((wsub i off : Nat) : K) + (modf g).2)

/-- GreensFunction.hh 17-20 `Green::OutOfBoundsBehavior`. -/
inductive OOB where
  | ignore
  | raise
deriving DecidableEq

/-- The state of the loop: the library; the interpolation buffer, i.e. the memory allocated by the constructor (351) and the number `size` of scalars the vector
    currently has; the vector behind the iterator `result` and the iterator's position; `cur_sample_ind`. -/
structure Acc (σ K : Type) where
  lib : σ
  mem : List K
  size : Nat
  out : List K
  pos : Nat
  cur : Nat

/-- GreensFunction.hxx 461-463 `inner_product`. -/
def innerProduct (field source : List K) : K := field.getD 0 0 * source.getD 0 0 + field.getD 1 0 * source.getD 1 0

/-- GreensFunction.hxx 425-432: add the inner products to the output range. `(hr, buf)` is `interp_buffer`. -/
def addProducts (hr : Hdr) (buf : List K) (source : List K) (weight : K) (i : Nat) (st : List K × Nat) : Res (List K × Nat) :=
  (read1 2 hr buf i).bind fun v =>
  if st.2 < st.1.length then .ok (st.1.set st.2 (st.1.getD st.2 0 + innerProduct v source * weight), st.2 + 1) else .ub

/-- GreensFunction.hxx 408-433: the calculations for one chunk. When the buffer grows again after having been shrunk, the cells of its memory become part of the vector
    without being initialised (`no_init_alloc`); `grow` maps what the memory contains to what is then read: the identity in practice, arbitrary according to the language. -/
def chunkPart {σ : Type} (L : Library σ K) (kn : Kern K) (grow : K → K) (m : Meta) (x y t dt : K) (req : Nat) (source : List K) (weight : K) (a : Acc σ K) :
    Res (Acc σ K) :=
  match m.ctype with
  | .all_null => .ok a
  | .specified =>
    (L.load a.lib m).bind fun q =>
    (toLocal x (m.offset.getD 0 0)).bind fun lx =>
    (toLocal y (m.offset.getD 1 0)).bind fun ly =>
    (toLocal t (m.offset.getD 2 0)).bind fun lt =>
    let ret := List.replicate a.size (0 : K)
    (interpolate kn 2 (mkHdr 2 q.2.1) q.2.2 (mkHdr 2 [a.size / 2]) ret lx ly lt dt req (fun k => grow (a.mem.getD k 0))).bind fun r =>
    (runLoop (addProducts r.1 r.2 source weight) (List.range req) (a.out, a.pos)).bind fun o =>
    .ok { a with lib := q.1, mem := r.2 ++ (ret ++ a.mem.drop a.size).drop r.2.length, size := r.2.length, out := o.1, pos := o.2 }

/-- GreensFunction.hxx 364-436, the loop. `x`, `y` is `rz_f_ind`, `ts`, `dt` are `t_start_f_ind`, `t_samp_f_ind`. -/
def accLoop {σ : Type} (L : Library σ K) (kn : Kern K) (grow : K → K) (oob : OOB) (x y ts dt : K) (n : Nat) (source : List K) (weight : K) :
    Nat → Acc σ K → Res (Acc σ K)
  | 0, _ => .diverge
  | fuel + 1, a =>
    if a.cur < n then
      let t := ts + (a.cur : K) * dt
      (toSize (modf x).1).bind fun i0 =>
      (toSize (modf y).1).bind fun i1 =>
      (toSize (modf t).1).bind fun i2 =>
      (L.find a.lib [i0, i1, i2]).bind fun f =>
      match f.2 with
      | none => if oob = .ignore then .ok { a with lib := f.1 } else .ub
      | some m =>
        (Res.assert (decide (kn.support ≤ m.overlap))).bind fun _ =>
        (toSize (modf (((m.stop.getD 2 0 : Nat) - t) / dt)).1).bind fun c =>
        let req := min (wadd c 1) (n - a.cur)
        (Res.assert (decide (t + ((wsub req 1 : Nat) : K) * dt ≤ (m.stop.getD 2 0 : Nat)))).bind fun _ =>
        (chunkPart L kn grow m x y t dt req source weight { a with lib := f.1 }).bind fun b =>
        accLoop L kn grow oob x y ts dt n source weight fuel { b with cur := b.cur + req }
    else .ok a

/-- GreensFunction.hxx 344-437 `accumulate_inner_product(rz_coords, t_start, t_samp, num_samples, source, result, weight, oob_mode)`; `junk` is the uninitialised memory of the
    interpolation buffer; `out` and `pos` are the vector behind the iterator `result` and its position. Returns the library and the vector. -/
def accumulate {σ : Type} (L : Library σ K) (G : GMeta K) (kn : Kern K) (grow : K → K) (junk : Nat → K) (r z : K) (t_start t_samp : K) (n : Nat) (source : List K)
    (out : List K) (pos : Nat) (weight : K) (oob : OOB) (s : σ) : Res (σ × List K) :=
  (accLoop L kn grow oob ((r - G.r0) / G.dr) ((z - G.z0) / G.dz) ((t_start - G.t0) / G.dt) (t_samp / G.dt) n source weight (n + 1)
    ⟨s, (List.range (n * 2)).map junk, n * 2, out, pos, 0⟩).bind fun a => .ok (a.lib, a.out)

end Verif.Green
