{"id": "C01", "title": "Element loops visit every index of a box exactly once, in row-major order", "statement": "index_loop_over_elements(begin, end, f) calls f on index i if and only if begin[d] <= i[d] < end[d] in every dimension d, on each such i exactly once, and in lexicographic order with the last dimension running fastest. If the range is empty in any dimension f is never called.", "quantifier": "all numbers of dimensions, all begin/end vectors", "why_tests_cant": "Every index box of every dimensionality: tests try a handful of shapes.", "anchors": ["eisvogel/core/impl/IteratorUtils.hh: index_loop_over_elements, index_loop_over_elements_dimension, index_loop_over_array_elements"]}
{"id": "C02", "title": "Chunked loops partition a box", "statement": "index_loop_over_chunks(begin, end, chunk_size, f) terminates and hands out sub-boxes that are non-empty, no larger than chunk_size in any dimension, contained in [begin,end), pairwise disjoint and together cover [begin,end), provided all chunk sizes are positive and begin+chunk_size does not wrap around 2^64 (which always holds for a loop over an array starting at 0, also with the 'infinite' chunk size). With chunk size 0 on a non-empty range it does not terminate; where begin+chunk_size wraps it hands out boxes outside the range.", "quantifier": "all dimensionalities, boxes and chunk shapes, including sizes that do not divide the extent and the INFTY chunk size", "why_tests_cant": "Exact-cover over all (extent, chunk size) pairs, and the 64-bit wrap-around corner, cannot be enumerated.", "anchors": ["eisvogel/core/impl/IteratorUtils.hh: index_loop_over_chunks, index_loop_over_chunks_dimension, index_loop_over_array_chunks"]}
{"id": "C03", "title": "Array addressing is a bijection onto the buffer", "statement": "For an array created with a given shape, different in-range indices address disjoint blocks of vec_dims scalars, every block lies inside the buffer, and the blocks together fill the buffer; so writing one element never changes another element.", "quantifier": "all dimensionalities, shapes, vector dimensions and index pairs", "why_tests_cant": "Aliasing for some shape/index pair is a needle in a haystack.", "anchors": ["eisvogel/core/impl/NDVecArray.hh: ComputeStrides, ComputeFlatInd, ComputeVolume, operator[]"]}
{"id": "C04", "title": "A view is a window onto its parent", "statement": "For a view of [s,e) of an array, reading or writing element i of the view reads or writes exactly element s+i of the parent, for nested views as well, and no other parent element is touched.", "quantifier": "all arrays, all sub-boxes, all nesting depths, all indices", "why_tests_cant": "All windows of all shapes, including views of views.", "anchors": ["eisvogel/core/impl/NDVecArray.hh: View, operator[], ComputeFlatInd"]}
{"id": "C05", "title": "Region fill and region copy touch exactly the requested region", "statement": "fill(start,end,v) sets exactly the elements in [start,end) to v. fill_from(other, in_start, in_end, out_start) makes element out_start+k of the destination equal to element in_start+k of the source for every k in the box and leaves every other destination element unchanged. Empty or out-of-range regions are rejected or have no effect; nothing is ever written outside the requested region.", "quantifier": "all shapes, regions, contents, and owning or view arrays on either side", "why_tests_cant": "Needs every region geometry, including regions touching the edges and views as source or target.", "anchors": ["eisvogel/core/impl/NDVecArray.hxx: fill, fill_from, has_index"]}
{"id": "C06", "title": "Appending along the outermost axis is concatenation", "statement": "a.Append<0>(b) for owning arrays with matching other extents leaves the elements of a in place and adds b's elements after them: result[i] = a[i] for i0 < shape_a[0] and b[i0-shape_a[0],...] otherwise.", "quantifier": "all shapes and contents", "why_tests_cant": "Depends on row-major layout for every shape.", "anchors": ["eisvogel/core/impl/NDVecArray.hxx: Append, resize, ShapeAllowsConcatenation"]}
{"id": "C07", "title": "Swapping axes permutes elements and undoes itself", "statement": "After a.SwapAxes<p,q>(d), d has the shape with extents p and q exchanged, d[swap(i)] = a[i] for every index i, and swapping the same axes again restores a.", "quantifier": "all dimensionalities, axis pairs, shapes and contents", "why_tests_cant": "All shapes and axis pairs.", "anchors": ["eisvogel/core/impl/NDVecArray.hxx: SwapAxes, index_loop_over_elements"]}
{"id": "C08", "title": "Copying an array yields an equal array", "statement": "Copy-constructing or copy-assigning from an array gives an array with the same shape and the same element at every index, whatever shape the destination had before - whether or not the source is a view.", "quantifier": "all shapes, contents, previous destination shapes, and owning/view sources", "why_tests_cant": "The failure for view sources depends on the view's offset and strides.", "anchors": ["eisvogel/core/impl/NDVecArray.hxx: operator=(const NDVecArray&), NDVecArray(const NDVecArray&)"]}
{"id": "C09", "title": "Element iteration visits every element exactly once with its own index", "statement": "index_loop_over_elements on an array calls the worker once per index in row-major order with the element stored at that index; loop_over_elements delivers the same elements in the same order, also on views; IsAllNull is true exactly if every element is zero; apply_sequential delivers the elements at the listed positions along the last axis, in the order of the list.", "quantifier": "all shapes, contents, views and sub-ranges", "why_tests_cant": "All shapes and views.", "anchors": ["eisvogel/core/impl/NDVecArray.hxx: loop_over_elements, index_loop_over_elements, apply_sequential, IsAllNull"]}
{"id": "C10", "title": "Scalars round-trip through the byte format", "statement": "Serializing a 32-bit or 64-bit unsigned integer, a float or a double writes exactly 4 or 8 bytes, most significant first, and deserializing returns exactly the value written (floats bit by bit) and leaves the stream right after it, whatever follows in the stream.", "quantifier": "all 2^32 / 2^64 values, all trailing bytes", "why_tests_cant": "2^64 values.", "anchors": ["eisvogel/core/impl/DefaultSerializationTraits.hxx: Traits<uint32_t>, Traits<uint64_t>, Traits<float>, Traits<double>; eisvogel/core/impl/Serialization.hh"]}
{"id": "C11", "title": "Aggregates round-trip through the byte format", "statement": "Vectors, arrays, strings, maps, index vectors and Green's-function metadata deserialize to exactly the value that was serialized and consume exactly the bytes written, so records can be concatenated in one stream in any order and nesting.", "quantifier": "all lengths, contents, nestings and trailing bytes", "why_tests_cant": "All lengths and nestings.", "anchors": ["eisvogel/core/impl/DefaultSerializationTraits.hxx: Traits<std::vector<T>>, Traits<std::array<T,n>>, Traits<std::map>, Traits<std::string>; eisvogel/core/impl/Vector.hxx: Traits<Vector>; eisvogel/core/impl/GreensFunction.hxx: Traits<CylindricalGreensFunctionMetadata>"]}
{"id": "C12", "title": "The float-vector format does not depend on the block size", "statement": "The bytes written for a float vector, and the vector read back, are the same for every positive block size, and a vector written with one block size is read back with any other.", "quantifier": "all vector lengths, contents and pairs of block sizes", "why_tests_cant": "Lengths around block multiples for every block size.", "anchors": ["eisvogel/core/impl/DefaultSerializationTraits.hxx: Traits<std::vector<float>> serialize/deserialize with block_size"]}
{"id": "C13", "title": "Null suppression is lossless up to the sign of zero", "statement": "Storing an array with null suppression and restoring it yields at every index the same vector, except that a vector that compares equal to zero comes back as +0; no non-zero vector is lost, moved or changed, for every pattern of zero runs including leading, trailing and all-zero, as long as no run reaches 2^32 vectors.", "quantifier": "all element sequences, vector dimensions and run patterns", "why_tests_cant": "Every run pattern of every length.", "anchors": ["eisvogel/core/impl/NDVecArraySerialization.hh: suppress_null, desuppress_null, suppress_zero"]}
{"id": "C14", "title": "The null-suppression buffer is always large enough and the reader consumes what the writer produced", "statement": "The number of scalars the null suppression of n vectors writes never exceeds the buffer length the library computes for n vectors, and restoring consumes exactly as many scalars as were written.", "quantifier": "all element sequences and vector dimensions", "why_tests_cant": "A heap overflow for one unlucky zero pattern would not show up in sampled tests.", "anchors": ["eisvogel/core/impl/NDVecArraySerialization.hh: calculate_required_buflen, suppress_null, desuppress_null; eisvogel/core/impl/NDVecArrayStreamer.hxx: serialize_all_chunks_null_suppressed"]}
{"id": "C15", "title": "Stored arrays read back equal for every serialization chunk shape and mode", "statement": "For every array shape and every serialization chunk shape with positive extents and at least one bounded dimension, serializing an array (dense or null-suppressed) and deserializing it returns an array with the same shape and the same elements (zeros up to sign in null-suppressed mode, where no chunk may hold 2^32 vectors or more) and leaves the stream positioned after the record. A chunk shape unbounded in all dimensions or the 'automatic' mode is refused with an exception before any data is lost.", "quantifier": "all shapes, contents, chunk shapes (dividing or not), modes and surrounding stream contents", "why_tests_cant": "The combinations of array shape x chunk shape x mode are unbounded.", "anchors": ["eisvogel/core/impl/NDVecArrayStreamer.hxx: serialize, deserialize, serialize_all_chunks_dense, serialize_all_chunks_null_suppressed, deserialize_all_chunks, is_serialization_chunk_well_formed"]}
{"id": "C16", "title": "Appending a slice to a stored array equals storing the concatenated array", "statement": "If append_slice to a stored array succeeds, then deserializing yields the concatenation of the stored array and all appended slices along that axis, in order, for any number of appends.", "quantifier": "all array and slice shapes, serialization chunk shapes, axes and histories of appends", "why_tests_cant": "Depends on the relation between stored extent, slice extent and chunk shape over whole append histories.", "anchors": ["eisvogel/core/impl/NDVecArrayStreamer.hxx: append_slice, permits_equally_sized_serialization_chunks, mark_as_final"]}
{"id": "C17", "title": "The cache behaves like an LRU map", "statement": "For every history of inserts, lookups and evictions, contains(k)/get(k) reflect the most recent value inserted for k since its last eviction, at most 'depth' entries are held, an insert that needs room evicts the least recently inserted-or-accessed entry, and the oldest-to-newest iteration lists the entries by recency.", "quantifier": "all depths >= 1 and all operation histories", "why_tests_cant": "Arbitrary operation histories on a pointer-linked structure.", "anchors": ["eisvogel/core/impl/Cache.hh, eisvogel/core/impl/Cache.hxx: insert_ref_no_overwrite, get, contains, evict, evict_oldest_from_full_cache, has_free_slot, loop_over_elements_old_to_new, loop_over_elements_new_to_old"]}
{"id": "C18", "title": "The memory pool never hands out a slot that is in use", "statement": "For every history of slot allocations and releases, a newly allocated slot is distinct from all slots currently in use, contents of slots in use survive growth of the pool, a released slot can be reused, and iteration visits exactly the slots in use in allocation order.", "quantifier": "all initial sizes >= 1, all alloc/free/reset histories", "why_tests_cant": "Arbitrary histories with growth at any point.", "anchors": ["eisvogel/core/impl/RStarTree.hh / eisvogel/core/impl/RStarTree.hxx: MemoryPool::get_empty_slot_front, free_slot, grow, reset, get_allocated"]}
{"id": "C19", "title": "Bounding boxes obey their geometric meaning", "statement": "For boxes with start <= end: contains(p) iff p lies in the half-open box; overlaps(a,b) iff they share a point (or, for empty boxes, as the inequalities say); extending a box by another yields the smallest box containing both; the overlap volume equals the number of common grid points; volume equals the number of grid points (volumes and margins in 64-bit arithmetic, i.e. modulo 2^64); margin is the sum of the edge lengths and the center the middle, rounded down.", "quantifier": "all dimensionalities and all boxes and points", "why_tests_cant": "All pairs of boxes; the implementation relies on unsigned wrap-around.", "anchors": ["eisvogel/core/impl/RStarTree.hxx: BoundingBox::contains, overlaps, extend, stretch, compute_overlap_volume, compute_volume; eisvogel/core/impl/ChunkUtils.hh"]}
{"id": "C20", "title": "The spatial index stores exactly what was inserted", "statement": "After any history of insertions, iterating over all entries of the spatial index yields exactly the inserted payloads, each once, whatever sequence of node splits, forced re-insertions and root growths occurred.", "quantifier": "all dimensionalities, entry boxes and insertion orders", "why_tests_cant": "Split/re-insert cascades depend on the global geometry of all earlier entries.", "anchors": ["eisvogel/core/impl/RStarTree.hxx: RStarTree::InsertElement, insert_slot, overflow_treatment, reinsert, split, GetAllEntries"]}
{"id": "C21", "title": "Point lookup in the spatial index is exact", "statement": "After any history of insertions, rebuilds and lookups, Search(p) on a non-empty index returns an inserted entry containing p if there is one and the null result otherwise; in particular, if the inserted boxes are disjoint it returns the unique entry containing p, regardless of which entry was looked up before.", "quantifier": "all insertion histories, all query points, all previous lookups", "why_tests_cant": "A loose bounding box or a stale last-accessed shortcut fails only for particular histories.", "anchors": ["eisvogel/core/impl/RStarTree.hxx: Search(const ind_t&), search_overlapping_leaf"]}
{"id": "C22", "title": "Region lookup in the spatial index is exact", "statement": "Search(start,end) returns every inserted entry whose box overlaps the query box, each exactly once, and no other entry.", "quantifier": "all insertion histories and query boxes", "why_tests_cant": "As for point lookup, over all query boxes.", "anchors": ["eisvogel/core/impl/RStarTree.hxx: Search(const ind_t&, const ind_t&), search_overlapping_leaves"]}
{"id": "C23", "title": "The spatial index stays balanced with bounded node sizes", "statement": "After any insertion history all entries sit at the same depth, every node holds at most MAX_NODESIZE children, every non-root node at least MIN_NODESIZE, and every node's box encloses all entries below it.", "quantifier": "all insertion histories", "why_tests_cant": "Invariant over all histories.", "anchors": ["eisvogel/core/impl/RStarTree.hxx: insert_slot, split, reinsert, overflow_treatment, recalculate_bbox"]}
{"id": "C24", "title": "Bulk rebuilding the spatial index changes no query result", "statement": "RebuildSTR on a non-empty index terminates and keeps the same set of entries, so that all point and region lookups return the same entries before and after; node sizes respect MAX_NODESIZE.", "quantifier": "all entry sets", "why_tests_cant": "Slab/group size arithmetic over all entry counts and dimensionalities.", "anchors": ["eisvogel/core/impl/RStarTree.hxx: RebuildSTR, the STR sort/pack helpers"]}
{"id": "C25", "title": "The index reports the exact bounding box of all chunks", "statement": "After any history of insertions and growing updates, the reported overall start and end indices are the componentwise minimum of all entry starts and maximum of all entry ends.", "quantifier": "all insertion and update histories", "why_tests_cant": "All histories.", "anchors": ["eisvogel/core/impl/RStarTree.hxx: GetBoundingBox, UpdateBoundingBox; eisvogel/core/impl/DistributedNDVecArray.hxx: ChunkIndex::get_start_ind, get_end_ind"]}
{"id": "C26", "title": "Chunk metadata is consistent and survives storage", "statement": "For every chunk, end index = start index + shape, and the local offset converts a global index into the position inside the stored, overlap-padded chunk; growing a chunk and swapping axes preserve this; and storing and reloading metadata returns the same record and positions the stream after it.", "quantifier": "all chunk positions, shapes, overlaps, growth histories", "why_tests_cant": "All histories of growth and persistence.", "anchors": ["eisvogel/core/impl/DistributedNDVecArray.hxx: ChunkMetadata ctor, GrowChunk, SwapAxes, Traits<ChunkMetadata>"]}
{"id": "C27", "title": "Chunk caching is invisible to readers", "statement": "For every cache size and every history of registering, appending to (slices along the first axis, the only axis NDVecArray::Append implements) and reading chunks, reading a chunk returns the data last registered for it followed by the slices appended to it, exactly as if every chunk were kept in memory; eviction and write-back never lose or duplicate data.", "quantifier": "all cache sizes including 0, all histories of register/append/read/flush over any number of chunks", "why_tests_cant": "Loss or duplication depends on the interleaving of evictions with appends.", "anchors": ["eisvogel/core/impl/DistributedNDVecArray.hxx: ChunkCache::RegisterNewChunk, RetrieveChunk, AppendSlice, FlushCache, deserialize_into_cache, sync_cache_element_with_disk, descope_cache_element"]}
{"id": "C28", "title": "A flushed library reads back identically after reopening", "statement": "After a flush, reopening the library from its directory yields the same chunks with the same metadata and contents as before.", "quantifier": "all library contents and histories before the flush", "why_tests_cant": "All histories and all cache states at flush time.", "anchors": ["eisvogel/core/impl/DistributedNDVecArray.hxx: ChunkCache::FlushCache, ChunkIndex::FlushIndex, load_and_rebuild_index"]}
{"id": "C29", "title": "New chunks never overwrite existing ones, also after reopening", "statement": "A chunk registered in a library gets an identity and a storage file different from those of all chunks already in the library, so that registering it changes no existing chunk - also when the library was reopened from disk or received chunks by import.", "quantifier": "all histories of registering, flushing, reopening and importing", "why_tests_cant": "Needs histories spanning several sessions.", "anchors": ["eisvogel/core/impl/DistributedNDVecArray.hxx: ChunkIndex::RegisterChunk, get_next_chunk_id, load_and_rebuild_index, import_index; ChunkCache::get_chunk_path"]}
{"id": "C30", "title": "Reading an element of a distributed array returns the value last stored for that index", "statement": "For non-overlapping registered chunks, the element read at a global index is the element of the unique chunk covering the index at the corresponding local position; region reads (FillArray) return the same values for every element of the region and reading a region not fully covered by chunks is detected.", "quantifier": "all chunk layouts, contents, regions and cache states", "why_tests_cant": "All layouts and regions.", "anchors": ["eisvogel/core/impl/DistributedNDVecArray.hxx: operator[], FillArray, RegisterChunk"]}
{"id": "C31", "title": "Appending a slice to a distributed array extends exactly the chunk behind it", "statement": "AppendSlice places the slice directly after the chunk that ends where the slice starts; afterwards all previously readable elements are unchanged and the new elements are readable at their global indices.", "quantifier": "all chunk layouts and slice histories", "why_tests_cant": "All histories.", "anchors": ["eisvogel/core/impl/DistributedNDVecArray.hxx: AppendSlice, ChunkMetadata::GrowChunk, ChunkIndex::UpdateBoundingBox"]}
{"id": "C32", "title": "Rebuilding chunks preserves every element and produces the requested regular grid", "statement": "RebuildChunks with a requested chunk size yields chunks that partition the array on a regular grid with at most the requested size, each readable element keeps its value, and the padding of each chunk holds the neighbouring elements inside the array and the boundary-condition value outside it.", "quantifier": "all array shapes, chunk sizes, overlaps, and boundary evaluators", "why_tests_cant": "All shapes and overlaps; corner elements of the padding combine several boundary rules.", "anchors": ["eisvogel/core/impl/DistributedNDVecArray.hxx: RebuildChunks, RebuildChunksPartial; eisvogel/core/impl/Symmetry.hxx: boundary_evaluator"]}
{"id": "C33", "title": "Shape queries are correct", "statement": "After any history, GetStartInd and GetEndInd return the corners of the smallest box around all registered chunks; GetShape returns the extents of that box exactly if the chunks leave no gap in it and zeros otherwise; GetVolume returns the number of elements of the box if there is no gap and 0 otherwise. The cached answers never go stale.", "quantifier": "all histories of library calls, all sets of disjoint chunks", "why_tests_cant": "A counting argument over all layouts and an invalidation argument over all histories.", "anchors": ["eisvogel/core/impl/DistributedNDVecArray.hxx: ChunkIndex::GetShape, GetVolume, is_contiguous"]}
{"id": "C34", "title": "Downsampling piecewise equals downsampling the whole", "statement": "Downsampling an array piece keeps exactly the elements whose global index is a multiple of the downsampling factor; the pieces of any partition of a range produce adjacent, non-overlapping index ranges that together are the downsampled whole.", "quantifier": "all start indices, shapes, factors >= 1 and partitions", "why_tests_cant": "All alignments of pieces to factors.", "anchors": ["eisvogel/core/impl/NDVecArrayOperations.hxx: Downsampling::downsample, get_downsampled_shape"]}
{"id": "C35", "title": "Chunk overlap computation is box intersection", "statement": "overlaps/get_chunk_overlap on two chunks: overlaps is true iff a common index exists, and then the computed start and shape describe exactly the set of common indices; contains is true iff the index lies in the chunk.", "quantifier": "all boxes of positive extent", "why_tests_cant": "All relative positions.", "anchors": ["eisvogel/core/impl/ChunkUtils.hh: contains, overlaps, get_chunk_overlap"]}
{"id": "C36", "title": "The interpolation kernels reproduce samples and low-order polynomials", "statement": "Both kernels have weights summing to one at every fractional position and reproduce the sample exactly at integer positions; the linear kernel is exact on affine data and the cubic (Keys) kernel on quadratic data.", "quantifier": "all fractional positions in [0,1), all sample values", "why_tests_cant": "A continuum of positions.", "anchors": ["eisvogel/core/impl/Interpolation.hxx: Kernel::Linear, Kernel::Keys, interpolate"]}
{"id": "C37", "title": "Interpolation only reads inside the chunk", "statement": "For every sample position inside a chunk whose overlap is at least the kernel's support, all elements the interpolation reads lie inside the stored chunk including its padding (the sample lying exactly on the chunk's end may touch one element past the needed range with weight zero).", "quantifier": "all positions, sampling steps and numbers of samples accepted by the caller", "why_tests_cant": "Continuum of positions; off-by-one at the upper edge.", "anchors": ["eisvogel/core/impl/Interpolation.hxx: interpolate; eisvogel/core/impl/GreensFunction.hxx: accumulate_inner_product, to_chunk_local_ind"]}
{"id": "C38", "title": "The inner product adds sample k to output position k", "statement": "accumulate_inner_product adds to output k exactly weight x (Green's function at time t_start + k t_samp) . source for every k < num_samples, for every division of the time axis into stored and all-zero chunks.", "quantifier": "all chunk divisions, start times, steps, sample counts and out-of-bounds modes", "why_tests_cant": "Depends on the position of all-zero chunks along the track.", "anchors": ["eisvogel/core/impl/GreensFunction.hxx: accumulate_inner_product"]}
{"id": "C39", "title": "The signal is the causal quadrature sum, independent of blocking", "statement": "apply_accumulate adds to signal sample k the quadrature-weighted sum over all integration points with t' <= t_k of the inner products, and the 100x100 blocking and the early exit do not change which (integration point, sample) pairs contribute: each causal pair contributes exactly once and no acausal pair does.", "quantifier": "all numbers of samples and integration points, block sizes, start times and segment durations", "why_tests_cant": "All sizes relative to the block size, all start-time offsets.", "anchors": ["eisvogel/core/impl/GreensFunction.hxx: apply_accumulate; eisvogel/core/impl/Quadrature.hh: TrapezoidalRule::fill_weights"]}
{"id": "C40", "title": "Quadrature weights filled block by block are the trapezoidal weights", "statement": "For every division of the integration points into consecutive blocks, the weights filled blockwise are 1/2 for the first and last integration point of the whole segment and 1 in between, and integrate affine functions exactly.", "quantifier": "all numbers of points and all blockings", "why_tests_cant": "All block boundaries, incl. the last block of size one.", "anchors": ["eisvogel/core/impl/Quadrature.hh: TrapezoidalRule::fill_weights"]}
{"id": "C41", "title": "Cylindrical projection is rotation invariant and norm preserving in the plane of the track", "statement": "The (r,z) coordinates and the (r,z) field components of a source do not change when position and field are rotated together about the z axis; r is the distance to the axis; on the axis the radial component is zero.", "quantifier": "all positions, field vectors and rotation angles", "why_tests_cant": "Continuum.", "anchors": ["eisvogel/core/impl/GreensFunction.hxx: coord_cart_to_cyl, field_cart_to_cyl"]}
{"id": "C42", "title": "Resampling a Green's function to an array covers every output sample", "statement": "fill_array writes at every output index the interpolated Green's function at the corresponding coordinate, zero where the covering chunk is all-zero; no output sample inside the domain is left out.", "quantifier": "all chunk layouts, ranges and sample counts", "why_tests_cant": "Depends on where the end position falls relative to chunk boundaries.", "anchors": ["eisvogel/core/impl/GreensFunction.hxx: fill_array; eisvogel/core/impl/DistributedNDVecArray.hxx: ChunkIndex::GetChunks"]}
{"id": "C43", "title": "Dynamic-range limiting zeroes exactly the negligible samples", "statement": "A field sample is kept iff the running maximum at its location exceeds the absolute threshold and the sample is at least maximum/dynamic range; kept samples are unchanged and the running maximum is the true maximum over all slices seen so far.", "quantifier": "all field histories, thresholds and positions", "why_tests_cant": "All histories.", "anchors": ["eisvogel/meep/impl/MEEPCylindricalGreensFunctionCalculator.hxx: FieldStatisticsTracker, limit_field_dynamic_range"]}
{"id": "C44", "title": "Rechunking by several processes gives the sequential result", "statement": "When the rechunking of a Green's function is split over any number of processes, then in every order in which the processes start, work through their partitions, close their array objects and (after the barrier) merge: every step succeeds, every partition is rechunked by exactly one process, the output library has exactly the chunks of the regular grid of the requested size over the array without its padding, each once, with the requested overlap; every element has the value of the input at the index shifted by the padding; the padded chunks hold what the boundary condition asks for in the input array; the input and all other directories are unchanged and the scratch directories are empty. The result depends neither on the number of processes nor on their relative speed.", "quantifier": "all numbers of processes, all interleavings of their steps before and after the barrier, all input libraries that fill a box (reached by any allowed history), all paddings, chunk sizes and overlaps", "why_tests_cant": "Interleavings and (processes, shape, chunk size) combinations are unbounded; a test sees one schedule.", "anchors": ["eisvogel/meep/impl/MEEPCylindricalGreensFunctionCalculator.hxx: rechunk_mpi, merge_mpi_chunks, get_partition_size, ensure_empty_directory, verify_shape", "eisvogel/core/impl/DistributedNDVecArray.hxx: RebuildChunksPartial, ImportLibrary"]}
{"id": "C45", "title": "Time slices of a simulation are stored without gaps or overlaps", "statement": "For every simulation length and calculation chunk size, the sequence of register-new-chunk and append-slice calls tiles the time axis: slice i lands at time index i and chunks have exactly the calculation chunk size except the last.", "quantifier": "all numbers of steps and chunk sizes", "why_tests_cant": "All (steps, chunk size) pairs.", "anchors": ["eisvogel/meep/impl/MEEPCylindricalGreensFunctionCalculator.hxx: the simulation loop callbacks"]}
{"id": "C46", "title": "Chunk-boundary filling visits exactly the padding", "statement": "The loop over the penetrating part of a chunk visits every padded index lying outside the array and no index inside the array.", "quantifier": "all arrays, and all padded chunks that share at least one index with the array (or with its range in each direction), for indices that fit into int", "why_tests_cant": "All relative positions.", "anchors": ["eisvogel/core/impl/DistributedNDVecArray.hxx: index_loop_over_penetrating_chunk_elements"]}
{"id": "C47", "title": "Merging libraries keeps all chunks", "statement": "Importing another library adds all its chunks with their metadata and contents under fresh identities and changes no existing chunk.", "quantifier": "all pairs of libraries", "why_tests_cant": "All library pairs.", "anchors": ["eisvogel/core/impl/DistributedNDVecArray.hxx: ChunkLibrary::ImportLibrary, ChunkIndex::ImportIndex, ChunkCache::ImportCache"]}
{"id": "C48", "title": "A crash during flush never leaves an index that refers to missing chunk data", "statement": "At every point during a flush, the chunks listed in the index on disk have their data on disk.", "quantifier": "all crash points of all flushes", "why_tests_cant": "Crash points.", "anchors": ["eisvogel/core/impl/DistributedNDVecArray.hxx: ChunkLibrary::FlushLibrary"]}
{"id": "C49", "title": "NumPy export writes a valid header", "statement": "For every array shape the exported file starts with the NumPy magic, its header length field describes the header, the data section starts at a multiple of 64 bytes and the header ends in a newline.", "quantifier": "all shapes and element types", "why_tests_cant": "Padding arithmetic for all header lengths.", "anchors": ["eisvogel/core/impl/NDVecArray.hxx: numpy export (stor::..., save_as_numpy)"]}
{"id": "C50", "title": "The range-emptiness test agrees with iteration", "statement": "empty_range(begin,end) is true iff iterating over [begin,end) visits no index.", "quantifier": "all boxes", "why_tests_cant": "Mixed cases (empty in one dimension only) of all dimensionalities.", "anchors": ["eisvogel/core/impl/IteratorUtils.hh: empty_range"]}
{"id": "C51", "title": "Shower profiles index their tables in bounds and nearest-energy selection is optimal", "statement": "Generating shower tracks from a one-dimensional profile reads only existing profile entries and produces contiguous track segments; choosing a stored shower by energy picks an entry with minimal energy distance.", "quantifier": "all profiles, densities, energies and step counts", "why_tests_cant": "Depends on the accumulated grammage for every density profile.", "anchors": ["extern/shower_profile/shower_1D/shower_1D.cpp; extern/shower_profile/shower_creator/shower_creator.cpp"]}
{"id": "C52", "title": "Appending along any axis either works or is rejected, never corrupts", "statement": "Appending a slice to a chunk along whichever axis the caller names either extends the chunk by that slice along that axis or is rejected without changing the stored data; in particular appending first along one axis and then along another must not store a slice twice. (The code violates this: when the append axis changes while unsaved slices are pending, the cached chunk writes the already-saved slices a second time.)", "quantifier": "all chunk shapes, all sequences of append axes, all cache sizes", "why_tests_cant": "The corruption needs a particular order of append axes and evictions.", "anchors": ["eisvogel/core/impl/DistributedNDVecArray.hxx: ChunkCache::AppendSlice, sync_cache_element_with_disk"]}
{"id": "C53", "title": "Loops over the elements of a library visit every element once with its value", "statement": "index_loop_over_elements(start, end, worker) calls the worker exactly once for every index of the region that is covered by a chunk, with the global index and the stored value, and for no other index; index_loop_over_elements(worker) does so for every element of the library.", "quantifier": "all histories of library calls, all regions", "why_tests_cant": "All layouts of chunks relative to the region, and all cache states in which chunks are read.", "anchors": ["eisvogel/core/impl/DistributedNDVecArray.hxx: ChunkLibrary::index_loop_over_elements"]}
{"id": "C54", "title": "Overlap of index ranges is computed exactly", "statement": "For any two index ranges, the helper functions for chunks tell exactly whether one contains an index, two non-empty ranges are found to overlap exactly if they have a common index, and the computed common part of overlapping ranges consists of exactly the indices in both; the stored parts of chunks that tile the calculation domain tile the storage domain.", "quantifier": "all start indices and shapes in any number of dimensions", "why_tests_cant": "The tests rely on unsigned wrap-around and must be right for every pair of ranges.", "anchors": ["eisvogel/core/impl/ChunkUtils.hh: contains, overlaps, get_chunk_overlap"]}
{"id": "C55", "title": "Padding of the storage domain stays inside the calculation domain and survives downsampling", "statement": "For every calculation domain, non-empty storage domain inside it, downsampling factor and requested padding, the padded storage domain lies in the calculation domain, and after downsampling it has exactly the unpadded downsampled extents plus the padding on both sides; the assertions of the calculator always hold.", "quantifier": "all domains, factors and paddings", "why_tests_cant": "Integer division and rounding for every combination.", "anchors": ["eisvogel/meep/impl/MEEPCylindricalGreensFunctionCalculator.hxx: calculate_mpi_chunk"]}
{"id": "C56", "title": "The merged result of a parallel calculation holds the field of every process at its place", "statement": "For every number of processes and every division of the storage domain among them, running the jobs (store every time step, exchange the axes, move to the output directory) and merging their outputs yields a library that holds at each stored place and time exactly the field element of the process that simulates the place, and nothing else.", "quantifier": "all numbers of jobs, domain divisions, steps, chunk sizes, downsampling factors and fields", "why_tests_cant": "Combination of storing, appending, swapping, moving and importing for every configuration.", "anchors": ["eisvogel/meep/impl/MEEPCylindricalGreensFunctionCalculator.hxx: calculate_mpi_chunk, merge_mpi_chunks; eisvogel/core/impl/DistributedNDVecArray.hxx"]}
{"id": "C59", "title": "Using a library only for reading changes no file", "statement": "Opening a library, reading elements and regions, looping over elements and asking for its shape writes no file whatever the cache size and the order of the accesses (chunks pushed out of the cache are dropped, not written). Flushing or closing the library afterwards can change nothing but the index file of its directory; after an allowed history the index file is written back byte for byte as it was, so that a whole reading session leaves all files unchanged.", "quantifier": "all histories, all sequences of reads, all cache sizes, all file system contents", "why_tests_cant": "Every access order, cache size and library content.", "anchors": ["eisvogel/core/impl/DistributedNDVecArray.hxx: ChunkCache::insert_into_cache, descend_cache, ChunkLibrary::~ChunkLibrary, FillArray, operator[]", "eisvogel/core/impl/ChunkIndex.hh: ChunkIndex::FlushIndex"]}
{"id": "C57", "title": "A parallel calculation stores the field in the padded storage domain whatever the division into simulation chunks", "statement": "For every division of the calculation domain into simulation chunks and of these among processes, the choice of the padded storage domain, the clipping of the simulation chunks to it, the jobs of all processes and the merging succeed; in the merged array the element at downsampled place j and time n is the simulated field at step n and place (start of the padded domain + factor * j); iterations call for exactly these elements; the shape is that of the downsampled padded domain and the number of steps.", "quantifier": "all domains, divisions, numbers of processes, steps, chunk sizes, downsampling factors, paddings and fields", "why_tests_cant": "The division is made by MEEP at run time and differs from machine to machine.", "anchors": ["eisvogel/meep/impl/MEEPCylindricalGreensFunctionCalculator.hxx: setup chunkloop, saving chunkloop, calculate_mpi_chunk, merge_mpi_chunks, Calculate"]}
{"id": "C60", "title": "A whole calculation yields a Green's function array that holds the field, with correct padding around each chunk, for every schedule of the processes", "statement": "For every division into simulation chunks and processes and every order in which the processes rechunk and finish, the calculation succeeds; the finished array has the downsampled extents of the requested storage domain; its chunks are the boxes of the regular grid of the requested chunk size; the element at index j is the field at step j_t and place start + factor * j; and the chunk that the interpolation gets around any index holds the field also in its overlap where it is stored, zero outside, and at negative radius the mirror image at the axis r = 0.", "quantifier": "all domains, divisions, schedules, steps, chunk sizes, overlaps, downsampling factors and fields", "why_tests_cant": "Depends on the division made by MEEP at run time and on the relative speed of the processes.", "anchors": ["eisvogel/meep/impl/MEEPCylindricalGreensFunctionCalculator.hxx: Calculate, calculate_mpi_chunk, merge_mpi_chunks, rechunk_mpi", "eisvogel/core/impl/DistributedNDVecArray.hxx: RebuildChunksPartial"]}
{"id": "C61", "title": "The stored Green's function samples are the computed field, limited to the dynamic range, whatever order MEEP calls the callbacks in", "statement": "For every division of the calculation domain into simulation chunks and of these among processes and every order of the grid points within a chunk, the callbacks that MEEP runs for each chunk at each step, followed by the storing, merging and (partly) rechunking, succeed; every sample of the merged array at downsampled place j and time n is the weighting field vector of that step and place if its magnitude is at least (largest magnitude so far in its 2x2 block of the chunk) / (dynamic range) and that maximum is above the threshold, and zero otherwise.", "quantifier": "all fields, domains, divisions, point orders, numbers of processes, steps, chunk sizes, downsampling factors, dynamic ranges and initial contents of buffers", "why_tests_cant": "The division and the order of points are chosen by MEEP at run time; the history of the field maximum has any length.", "anchors": ["eisvogel/meep/impl/MEEPCylindricalGreensFunctionCalculator.hxx: eisvogel_setup_chunkloop, eisvogel_saving_chunkloop, FieldStatisticsTracker, calculate_mpi_chunk"]}
{"id": "C62", "title": "The result of a calculation does not depend on the division into simulation chunks", "statement": "Two calculations that differ only in the division of the calculation domain into simulation chunks and processes store the same samples. (Proved for samples whose magnitude is decided by bounds over their direct neighbourhood; false in general, since the blocks of the dynamic range statistics are counted from the first stored index of each simulation chunk.)", "quantifier": "all pairs of divisions, all fields, steps and places", "why_tests_cant": "Pairs of divisions on any number of processes; unit tests run one division.", "anchors": ["eisvogel/meep/impl/MEEPCylindricalGreensFunctionCalculator.hxx: FieldStatisticsTracker, eisvogel_saving_chunkloop"]}
{"id": "C66", "title": "A Green's function made from a distributed array can be opened again, with the same coordinates and data", "statement": "After any allowed history that ends with an open array whose chunks start at the origin, constructing a Green's function from it with any start, end and step coordinates succeeds; opening the directory afterwards, with any cache size, succeeds, returns the coordinates bit by bit and answers every element access, region read, shape query and loop as the original array would; closing it leaves all files unchanged. If the chunks do not start at the origin, construction succeeds but opening ends the program.", "quantifier": "all allowed histories of the array, all coordinates, all cache sizes, all sequences of reads", "why_tests_cant": "The history before and the reads after are unbounded sequences; the constructor opens a second library object on the directory while the first is alive and both write the index.", "anchors": ["eisvogel/core/impl/GreensFunction.hxx: CylindricalGreensFunction constructors, save_metadata, load_metadata, move_path_from", "eisvogel/core/impl/DistributedNDVecArray.hxx: ChunkLibrary, FlushLibrary"]}
{"id": "C64", "title": "The incomplete gamma function is computed to the requested tolerance and the calculation ends", "statement": "For every order a = m + 1 (m a natural number), every argument z > 0 and every relative tolerance 0 < tol <= 1, incomplete_gamma(a, z, tol) ends; apart from rounding its result is the integral of t^m exp(-t) from z to infinity, at most tol (m+1) m!/2 too large where the series is used, and with relative error at most tol where the continued fraction is used (after at most m + 2 rounds). Negative arguments end the program.", "quantifier": "all orders, all positive real arguments, all tolerances", "why_tests_cant": "Loops without bound over a continuum of arguments; a stopping rule that compares successive approximations does not by itself bound the error.", "anchors": ["eisvogel/core/impl/MathUtils.hxx: incomplete_gamma, incomplete_gamma_series_expansion, incomplete_gamma_continued_fraction"]}
{"id": "C65", "title": "The analytic dipole field is causal, free of divergence and belongs to a proper low-pass step", "statement": "For every refractive index, filter order >= 1 and peaking time, the two numbers the analytic calculator stores for a point are, apart from rounding, the radial and axial field of a dipole on the axis whose moment follows the filtered step: zero until light has travelled the distance, without divergence off the axis (except on the wave front), tending to the static dipole field, even in r, NaN within the minimal radius; the filtered step rises monotonically from 0 to 1, its derivative is the filtered delta (whose derivative is the third function used) and is largest exactly at the peaking time.", "quantifier": "all points, times, refractive indices, filter orders and peaking times", "why_tests_cant": "Statements about derivatives, limits and monotonicity over a continuum of points and times.", "anchors": ["eisvogel/core/impl/AnalyticGreensFunctionCalculator.hxx: EvaluateElectricDipoleGreensFunction"]}
{"id": "C63", "title": "The stored Green's function of the analytic dipole has the dipole's field at all its grid points", "statement": "For every domain whose axes are at least one requested step (and at most 2^30 steps) long and every chunk size from 1 to 2^16 - 5, calculating the Green's function of an electric dipole succeeds, whatever the target directory contained. The result can be opened again with any cache size; it has the given start and end coordinates, and steps that divide each axis evenly. However often and in whatever order chunks are looked up, each one contains the grid point it was looked up for, has two layers of overlap on all sides, and has at each of its points the value of the dipole's field there: also in the overlap with other chunks and, mirrored, beyond the axis of symmetry; behind the other ends of the domain it has zeros.", "quantifier": "all domains, dipole and filter parameters, oversampling factors, chunk sizes, previous directory contents, cache sizes, sequences of lookups", "why_tests_cant": "The number of chunks, their cut-off sizes at the ends, and the orders of cache use are unbounded; a test sees one grid.", "anchors": ["eisvogel/core/impl/AnalyticGreensFunctionCalculator.hxx: ElectricDipole, EvaluateElectricDipoleGreensFunction"]}
{"id": "C68", "title": "The analytic Green's function is sampled with the requested oversampling of the filter's 3 dB frequency", "statement": "For every filter order >= 1 and peaking time, the frequency taken for choosing the steps is the one at which the filter's power response is one half (larger below, smaller above). The steps of the grid are at most one half period (and half wavelength in the medium) of this frequency divided by the requested oversampling factor.", "quantifier": "all filters, domains and oversampling factors", "why_tests_cant": "A Fourier integral over an infinite range, for a continuum of filters; the steps depend on all domain sizes.", "anchors": ["eisvogel/core/impl/AnalyticGreensFunctionCalculator.hxx: ElectricDipole (fmax, delta_t, delta_pos, number_pts, stepsize)"]}
{"id": "C67", "title": "End to end: the signal from a calculated, stored and reloaded dipole Green's function is the quadrature of the interpolated analytic field", "statement": "After the Green's function of a dipole was calculated and stored by ElectricDipole and opened again with any cache size, any sequence of accumulate_inner_product and apply_accumulate calls succeeds, and each gives the inner products (the causal trapezoidal sum) of the source with the analytic dipole field interpolated from its values at the grid points; at a grid point the value is the analytic field itself.", "quantifier": "all dipoles, domains, chunk sizes, cache sizes, segments and sequences of requests inside of the grid", "why_tests_cant": "The result depends on every chunk boundary, the cache history, block sizes and positions; only a composition of invariants from the calculator through the files to the signal covers all of them.", "anchors": ["eisvogel/core/impl/AnalyticGreensFunctionCalculator.hxx: ElectricDipole", "eisvogel/core/impl/GreensFunction.hxx: CylindricalGreensFunction, accumulate_inner_product, apply_accumulate"]}
{"id": "C58", "title": "The coordinates recorded with a MEEP Green's function place its samples where the simulation took them", "statement": "A calculator accepts exactly the non-empty storage regions inside of the geometry. It stores the cells that belong to the requested region (less than one cell below its start, less than two below its end; exactly the request if it starts and ends at cells), takes one sample in time per time step up to the end, each after the smallest sufficient number of simulation steps, and records with the finished array start, end and step such that index j along each axis stands for the place and time where this sample was taken.", "quantifier": "all geometries, regions, resolutions, downsampling factors, time steps and end times", "why_tests_cant": "Rounding of the region to cells, of cells to samples and of the end time to time steps interact; a test fixes one combination.", "anchors": ["eisvogel/meep/impl/MEEPCylindricalGreensFunctionCalculator.hxx: calculate_mpi_chunk, Calculate", "eisvogel/meep/impl/Geometry.hxx: CylinderRegion, CylinderGeometry::contains", "eisvogel/core/impl/MathUtils.hh: is_integer"]}
{"id": "C69", "title": "A Green's function calculated with MEEP, once loaded, answers requests according to the simulated field", "statement": "Calculate a Green's function with MEEP on any number of processes and load it. Then every later request to the loaded object (inner products at a position and equidistant times, or the signal of a charge moving on a segment; linear or cubic interpolation; any sequence of requests, any cache size) gives the interpolation of the simulated field at the stored samples: index (i, j, k) stands for the cell (z0 + ds j, |r0 + ds i|) and the k-th sample in time.", "quantifier": "all storage regions, downsampling factors, overlaps, chunk sizes, divisions of the simulation into chunks and processes, schedules of the processes, cache sizes, and all sequences of requests", "why_tests_cant": "The path runs through saving, merging, rechunking with overlap and mirroring at the axis, metadata, loading, caching and interpolation; a test fixes one division, one schedule and a few positions.", "anchors": ["eisvogel/meep/impl/MEEPCylindricalGreensFunctionCalculator.hxx: Calculate", "eisvogel/core/impl/GreensFunction.hxx: CylindricalGreensFunction, apply_accumulate, accumulate_inner_product", "eisvogel/core/impl/DistributedNDVecArray.hxx: RebuildChunksPartial"]}
{"id": "C70", "title": "Signals of any number of tracks add up, in any order, on any object", "statement": "Call AccumulateSignal (or the calculate of the CORSIKA interface) for any list of tracks on one signal buffer: each sample afterwards is its previous value plus the sum over the tracks of what one track contributes (the quadrature of the interpolated field along the track). Hence permuting the tracks, using another Green's function object on the same data (other cache depth, already used), or other contents of uninitialised memory changes nothing. A track that does not run forward in time is refused. A sample before the beginning of a track gets nothing from it (no contribution before the track has started).", "quantifier": "all lists of tracks inside the region, all permutations, all cache depths and previous uses, all contents of uninitialised memory", "why_tests_cant": "All lists and orders of tracks and all cache states are quantified over; buffers are reused between calls.", "anchors": ["eisvogel/core/impl/SignalCalculator.hxx: AccumulateSignal", "extern/corsika/impl/C8SignalCalculator.hxx: calculate", "eisvogel/core/impl/GreensFunction.hxx: apply_accumulate"]}
{"id": "C71", "title": "Signals have the symmetries of the problem", "statement": "Rotating a track around the axis or reflecting it through the axis plane does not change its signal; shifting track and sampling times by the same time does not change it; charge and weight are factors; and cutting a track at one of its quadrature points into two tracks gives the sum of the two signals.", "quantifier": "all tracks inside the region, all angles, time shifts, charges and weights, all cut points of the quadrature", "why_tests_cant": "A statement about pairs of runs with continuously varying parameters.", "anchors": ["eisvogel/core/impl/GreensFunction.hxx: apply_accumulate, accumulate_inner_product", "eisvogel/core/impl/Symmetry.hxx", "eisvogel/core/impl/Current.hxx"]}
{"id": "C72", "title": "Tables of the application are interpolated linearly, whatever the order of their rows", "statement": "A table (index of refraction against height, impulse response against time) of at least two rows in any order: the value at any argument from the smallest up to the largest argument is on the straight line between the two neighbouring rows; elsewhere an exception is raised. The order of the rows does not matter; rows are reproduced; values stay within the bounds of the table. The impulse response is zero outside of its table.", "quantifier": "all tables of at least two rows, all orders, all results of an unstable sort, all arguments", "why_tests_cant": "All tables and arguments; std::sort may arrange equal arguments in any way.", "anchors": ["applications/dipole/dipole.cxx: lin_interp, reorder, sort"]}
{"id": "C73", "title": "The reader for tables takes the requested column of every row", "statement": "From a text file with any number of rows of comma-separated numbers, with or without a final line break, ReadColumn returns the requested column, in order; a field that is not a number is reported by an exception; so is an empty line or a row that is too short.", "quantifier": "all files (any number of rows, any numbers of fields), all columns", "why_tests_cant": "All texts; undefined behaviour on empty lines is not visible in a passing test.", "anchors": ["tests/test_utils/CSVReader.hxx"]}
{"id": "C74", "title": "Medium and antenna are placed in the simulation where the user put them", "statement": "The simulation has the user's permittivity at every position; the source is at the position of the antenna; its current is minus the impulse response times a constant from the start to the end time, and zero before and after; it is linear in the impulse response. The interface of CORSIKA accepts exactly the non-degenerate cylinders, stores all of it, and reports the location of the antenna.", "quantifier": "all geometries, permittivity functions, antennas, positions and times", "why_tests_cant": "All positions and times, all geometries.", "anchors": ["eisvogel/core/impl/Geometry.hxx", "eisvogel/core/impl/Antenna.hxx", "eisvogel/meep/impl/MEEPCylindricalGreensFunctionCalculator.hxx: calculate_mpi_chunk", "extern/corsika/impl/C8GreensFunctionCalculator.hxx", "extern/corsika/impl/C8SignalCalculator.hxx"]}
{"id": "C75", "title": "An exported signal can be read back", "statement": "ExportSignal writes times and values such that the reader for tables gives them back, in order, as formatted and parsed, for signals of every length.", "quantifier": "all signals (all lengths, all values), all formats of single numbers", "why_tests_cant": "All lengths and values.", "anchors": ["eisvogel/core/impl/SignalExport.hxx: ExportSignal", "tests/test_utils/CSVReader.hxx"]}
{"id": "C76", "title": "The stored field of the analytic dipole satisfies Maxwell's equations", "statement": "The field that ElectricDipole evaluates is an electromagnetic wave: there is a magnetic field, zero until the wave front arrives, with which Faraday's and Ampere's law hold in the medium (with Gauss's law, C65, all of Maxwell's equations without sources).", "quantifier": "all points off the axis outside of the smallest radius, all times but that of the wave front, all indices of refraction, peaking times and filter orders >= 1", "why_tests_cant": "A differential equation at all points and times, for all parameters; a test compares a few numbers.", "anchors": ["eisvogel/core/impl/AnalyticGreensFunctionCalculator.hxx: EvaluateElectricDipoleGreensFunction"]}
{"id": "C77", "title": "Incomplete files are recognised", "statement": "If a stored file (index of a library, array or chunk file, metadata of a Green's function) ends early, at whatever byte, because writing was interrupted, reading it does not end normally but reports an error; and no complete file is the beginning of another one.", "quantifier": "all stored values, all byte positions at which the file may end", "why_tests_cant": "All files and all cut positions.", "anchors": ["eisvogel/core/impl/DefaultSerializationTraits.hxx", "eisvogel/core/impl/NDVecArrayStreamer.hxx: deserialize", "eisvogel/core/impl/DistributedNDVecArray.hxx: ChunkIndex::load_and_rebuild_index", "eisvogel/core/impl/GreensFunction.hxx: CylindricalGreensFunction"]}
{"id": "C78", "title": "What has been flushed survives a crash", "statement": "Once a library has been flushed, closed or moved, a crash at any later time, while it is used further (chunks registered, read, appended to, imported; other libraries opened; flushed or closed again, up to any step of that), does not lose data: a library opened on the same directory afterwards returns the values of all chunks that were in it at that time.", "quantifier": "all histories of calls on any number of libraries, all cache sizes, all crash points between calls and between the steps of FlushLibrary and of the destructor", "why_tests_cant": "All histories and all crash points.", "anchors": ["eisvogel/core/impl/DistributedNDVecArray.hxx: FlushLibrary, ~ChunkIndex, ~ChunkCache, descope_cache_element, SwapAxes, AppendSlice"]}
{"id": "C79", "title": "Rounding errors of the interpolation are bounded", "statement": "In floating-point arithmetic with unit roundoff u, carried out in the order of the source, with or without fused multiply-adds and within the range of exponents, every interpolated value differs from the exact interpolation of the stored values at the position of the sample by at most ((1+u)^12 - 1) M for the linear kernel and ((1+u)^62 - 1) 2 M for the Keys kernel, where M is the largest stored magnitude: in single precision less than 1e-6 M and 8e-6 M. The position itself is within three roundings of start + k delta.", "quantifier": "all arithmetics of unit roundoff u, all arrays, positions, numbers of samples and components", "why_tests_cant": "All floating-point inputs and all roundings.", "anchors": ["eisvogel/core/impl/Interpolation.hxx: Linear::kern, Keys::kern, interpolate_1d, interpolate", "eisvogel/core/Common.hh: scalar_t", "CMakeLists.txt"]}
{"id": "C80", "title": "Rounding never makes a signal request read outside of a chunk", "statement": "Whatever the rounding of the sample positions, the interpolation of a signal reads only elements of the loaded chunk and writes only inside the signal; every iteration takes at least one sample, and the request completes for all positions inside the domain.", "quantifier": "all arithmetics of unit roundoff u, libraries, positions, sampling steps, numbers of samples, histories of the cache", "why_tests_cant": "Depends on the rounding of every single position; only particular combinations of chunk end, start and step show the failure.", "anchors": ["eisvogel/core/impl/GreensFunction.hxx: accumulate_inner_product", "eisvogel/core/impl/Interpolation.hxx: interpolate", "eisvogel/core/Common.hh: scalar_t"]}
{"id": "C81", "title": "Accuracy of a signal request in floating-point arithmetic", "statement": "Whatever the roundings of positions, kernel weights, sums and products, each sample of a signal request differs from the exactly computed one by at most an explicit bound, proportional to the roundoff, the magnitude of the field and of the source; samples that are not requested or outside the domain are not touched.", "quantifier": "all arithmetics of unit roundoff u, libraries and fields bounded by M, positions, steps, numbers of samples, sources, weights, previous contents of the signal, histories of the cache", "why_tests_cant": "A test compares with particular data; the accumulated error depends on all values, positions and chunk boundaries.", "anchors": ["eisvogel/core/impl/GreensFunction.hxx: accumulate_inner_product", "eisvogel/core/impl/Interpolation.hxx: interpolate", "eisvogel/core/impl/Interpolation.hh: Kernel::Keys, Kernel::Linear"]}
{"id": "C82", "title": "A crash in the middle of a call does not destroy what was saved", "statement": "If the process dies at any point inside a library call, with the files the call was writing complete, partially written or untouched, every chunk that had been flushed, closed or moved before and is not itself being changed by the call can still be read with its contents by a program that opens the library afterwards.", "quantifier": "all histories of library calls, all next calls, all crash points inside the call, all contents of the partially written files", "why_tests_cant": "A test kills the process at a few points; the set of files being written depends on what the cache evicts and on all previous calls.", "anchors": ["eisvogel/core/impl/DistributedNDVecArray.hxx: ChunkCache::descope_cache_element, sync_cache_element_with_disk, FlushCache, MoveCache, ImportCache, ClearCache", "eisvogel/core/impl/DistributedNDVecArray.hxx: ChunkIndex::FlushIndex, MoveIndex, ImportIndex", "eisvogel/core/impl/DistributedNDVecArray.hxx: ChunkLibrary"]}
{"id": "C83", "title": "A shower made from a profile file is the requested shower of the file", "statement": "After loading a file of shower profiles, creating a shower of a given kind, energy and index uses exactly the profile of the index-th shower in the file that has this kind and the nearest energy among those of this kind (the first in the file on a tie), with the grammages converted to internal units and the charge scaled by the ratio of the energies. Files that are missing or end within a shower are reported.", "quantifier": "all files (any number of showers of any kinds, energies, lengths), kinds, energies, indices, and values found in uninitialised memory", "why_tests_cant": "The result depends on the whole file contents and on uninitialised memory, which differs from run to run.", "anchors": ["extern/shower_profile/shower_creator/shower_creator.cpp: ShowerCreator::ShowerCreator, read_shower, create_shower", "extern/shower_profile/convert_shower_profile.py: write_shower"]}
{"id": "C84", "title": "Array operations whose argument shares the data act as if the argument were a copy", "statement": "Copying a region between two views of the same array, assigning an array to itself, appending an array to itself and swapping the axes of an array into itself give the same result as with a separate copy of the argument.", "quantifier": "all shapes, view chains, regions (disjoint, overlapping, identical) and contents", "why_tests_cant": "Aliasing hazards appear only for particular overlaps of source and target and orders of the element copies.", "anchors": ["eisvogel/core/impl/NDVecArray.hxx: fill_from, operator=, Append, SwapAxes"]}
{"id": "C85", "title": "AccumulateSignal in floating point: every legal request completes with the trapezoidal signal up to rounding", "statement": "For a charge on a segment inside of the domain, AccumulateSignal returns and adds to every sample the trapezoidal sum over the track of current times interpolated Green's function, up to an error that is a bounded number of roundings of the magnitudes involved, and leaves the rest of the signal alone.", "quantifier": "all segments, sampling times, Green's functions, kernels and arithmetics whose operations round with relative error u", "why_tests_cant": "Roundings accumulate along the chain track position, cylindrical coordinates, index, interpolation, sum; where they move an index or the causality cut depends on the exact bits of the request.", "anchors": ["eisvogel/core/impl/GreensFunction.hxx: apply_accumulate, coord_cart_to_cyl, field_cart_to_cyl, coords_to_index, accumulate_inner_product"]}
{"id": "C86", "title": "What a streamer reads and writes does not depend on what it was used for before", "statement": "A streamer object is reused for many arrays, and its buffer is neither cleared nor initialised. Every file it writes and every array it reads must be what a new streamer would have produced; in particular no data of an earlier array may appear in a later one.", "quantifier": "all sequences of writes, appends and reads with one streamer, all arrays, chunk shapes and modes, all initial contents of the buffer", "why_tests_cant": "The buffer only shows when a chunk needs less of it than an earlier one or when a stream ends early, and which old bytes show depends on the whole history.", "anchors": ["eisvogel/core/impl/NDVecArrayStreamer.hh: m_ser_buffer", "eisvogel/core/impl/NDVecArrayStreamer.hxx: serialize, deserialize, append_slice", "eisvogel/core/MemoryUtils.hh: no_init_alloc"]}
{"id": "C87", "title": "The interpolated Green's function approximates the field that was sampled", "statement": "Between the grid points, the Green's function that a request sees differs from the field whose samples are stored by at most E (Mr dr^d + N Mz dz^d + N^2 Mt dt^d) + N^3 δ, where Mr, Mz, Mt bound the derivatives of order d of the field along the axes and δ the errors of the samples. The linear kernel is of second order (E = 1/8, N = 1), the cubic kernel of third order (E = 3/32, N = 5/4).", "quantifier": "all fields with bounded derivatives, all grids, all positions for which the samples around it exist, both kernels, all errors of the samples", "why_tests_cant": "Accuracy between grid points is a statement about all smooth fields; a test compares a few positions for one field.", "anchors": ["eisvogel/core/impl/Interpolation.hh: InterpolationKernel", "eisvogel/core/impl/Interpolation.hxx: interpolate", "eisvogel/core/impl/GreensFunction.hxx: accumulate_inner_product"]}
{"id": "C88", "title": "The computed signal approximates the integral along the track", "statement": "The signal sample at time τ that is added to the output is minus the weight times the integral over the track, up to time τ, of the field at the position of the charge and the delay τ - t, times the current. The error is at most the interpolation error along the track plus that of the trapezoidal rule: of second order in the step if the whole track is in the past, of first order otherwise. Before the track begins nothing is added.", "quantifier": "all Green's functions that answer requests from samples of a field, all fields, tracks, charges, sample times, block sizes and states of the object", "why_tests_cant": "The reference is an integral of an arbitrary field, and the error bound must hold for every field and every track.", "anchors": ["eisvogel/core/impl/GreensFunction.hxx: apply_accumulate", "eisvogel/core/impl/Quadrature.hh: TrapezoidalQuadrature", "eisvogel/core/impl/SignalCalculator.cxx: AccumulateSignal"]}
{"id": "C89", "title": "The Green's function is as accurate next to the axis as elsewhere", "statement": "Between the axis r = 0 and the first grid point, where the kernel reaches into the overlap at negative radius, the Green's function that a request sees approximates the field with the order of the kernel, for both components.", "quantifier": "all smooth fields, grids that begin at the axis, positions in the first cell, both components, both kernels", "why_tests_cant": "The error of a wrong continuation across the axis depends on field, grid and position, and is largest in one cell that tests of smooth profiles rarely sample.", "anchors": ["eisvogel/core/impl/AnalyticGreensFunctionCalculator.hxx: ElectricDipole", "eisvogel/meep/impl/MEEPCylindricalGreensFunctionCalculator.hxx: Calculate", "eisvogel/core/impl/Interpolation.hh: InterpolationKernel"]}
{"id": "C90", "title": "On finer grids the signal from a calculated dipole Green's function converges to that of the dipole", "statement": "For every dipole and every region away from it there is a constant M: calculate the Green's function of the dipole on any grid, store it, load it, and ask for the signal of a charge on a track in that region. The signal after the end of the track is minus the weight times the integral of the field of the dipole along the track, with an error of at most M times the power d of the steps of the grid (d the order of the kernel, limited by the order of the filter), plus that from the rounding of the samples, plus that of the trapezoidal rule, which is of second order.", "quantifier": "all dipoles, regions away from the dipole, grids, tracks, charges, sample times, block sizes, cache sizes and states of the object, both kernels", "why_tests_cant": "The constant has to be the same for all grids; tests can only compare a few grids and cannot show that the error goes on decreasing.", "anchors": ["eisvogel/core/impl/AnalyticGreensFunctionCalculator.hxx: ElectricDipole", "eisvogel/core/impl/GreensFunction.hxx: apply_accumulate", "eisvogel/core/impl/Interpolation.hh: InterpolationKernel"]}
{"id": "C91", "title": "The region printed for a shower is the smallest one that contains its tracks", "statement": "The region (distances from the axis and heights) that print_dimensions prints as the required size of the Green's function contains all positions on all tracks that fill_tracks makes for the same shower, for every step, and none of its limits can be made tighter.", "quantifier": "all showers (start positions, directions, profiles, densities) and steps, and all positions on the tracks", "why_tests_cant": "The tracks are a continuum of positions and depend on start, direction, profile and step; tests look at the end points of a few showers.", "anchors": ["extern/shower_profile/shower_1D/shower_1D.cpp: Shower1D::print_dimensions, fill_tracks, get_shower", "examples/shower_profile/02calculate_shower_emission.cpp"]}
{"id": "C92", "title": "The Green's function and the signals from a MEEP simulation converge to the simulated field, with first order", "statement": "For every smooth field there is a constant: in every calculation with MEEP whose simulation has the field in each cell up to some error, the Green's function that requests see differs from the field by at most the constant times the largest of cell size, time steps and rounding of the coordinates, plus a multiple of the error of the simulation; and the signal of a charge on a track is minus the weight times the integral of the field along the track with the corresponding error. No kernel gives a higher order, because the recorded coordinates are off by up to a cell.", "quantifier": "all fields, geometries, requested regions, resolutions, downsampling factors, schedules of the processes, cache sizes, states of the object, positions and tracks in the stored region, both kernels", "why_tests_cant": "The constant has to be the same for all resolutions and positions; a test compares a few and cannot separate the order of convergence from the error of the simulation.", "anchors": ["eisvogel/meep/impl/MEEPCylindricalGreensFunctionCalculator.hxx: Calculate, rechunk_mpi, storage domain and coordinates", "eisvogel/core/impl/GreensFunction.hxx: apply_accumulate", "eisvogel/core/impl/Interpolation.hh: InterpolationKernel"]}
{"id": "C93", "title": "However the compiler rearranges the arithmetic (-ffast-math), interpolation and signals are the same up to rounding", "statement": "The project is compiled with -ffast-math, which allows the compiler to regroup, reorder, distribute, factor out and contract the sums and products of the interpolation and of the accumulation of the signal. Whatever expression it makes of them, the interpolated samples and the signal differ from the exact kernel interpolation and the exact sum by at most ((1+u)^c-1) times the sum of the magnitudes, c being the number of roundings in the rearranged expression. The results are not the same bits for all arrangements.", "quantifier": "all arrangements, rounding units and results of rounding within them, arrays, positions inside the array, numbers of samples, sequences of contributions to a sample of the signal", "why_tests_cant": "A test sees what one compiler made of the expressions for one target; which rearrangement is used depends on compiler, version and machine (-march=native).", "anchors": ["CMakeLists.txt: -ffast-math", "eisvogel/core/impl/Interpolation.hxx: interpolate, InterpolationKernel", "eisvogel/core/impl/GreensFunction.hxx: accumulate_inner_product"]}
{"id": "C94", "title": "The signal of a shower is that of its charge excess along its axis, up to an error proportional to the step", "statement": "The tracks that fill_tracks makes of a shower, given to AccumulateSignal one after the other, add to each sample of the signal minus the integral, along the axis of the shower at the speed of light, of the charge excess (the scaled profile at the grammage crossed so far) times the field, up to the error of the interpolated field and a constant times the step of the tracks. The example program for showers writes this signal.", "quantifier": "all showers (vertex, direction, profile, scaling), steps, fields, Green's functions, states of the object, samples, positions of the axis inside the stored region", "why_tests_cant": "The error has to vanish with the step for all showers and fields; a test compares one shower at one step with another approximation.", "anchors": ["extern/shower_profile/shower_1D/shower_1D.cpp: get_shower, fill_tracks", "eisvogel/core/impl/SignalCalculator.hxx: AccumulateSignal", "examples/shower_profile/02calculate_shower_emission.cpp: main"]}
{"id": "C95", "title": "The structure of the spatial index is written as JSON, completely", "statement": "DumpJSONTreeStructure writes a JSON text: an array of objects, one for every node and one for every entry of the index, with type, start, end and shape of the box and (for nodes) the level. Each node comes directly before what is below it. This holds whatever was inserted, updated, rebuilt or cleared before, also for an empty index.", "quantifier": "all histories of calls on an index, all boxes and payloads, any number of directions", "why_tests_cant": "Separators and brackets depend on the position in a tree of any depth; a test parses the file of one tree.", "anchors": ["eisvogel/core/impl/RStarTree.hxx: DumpJSONTreeStructure, dump_JSON, dump_node_JSON, dump_entry_JSON", "eisvogel/core/impl/Vector.hh: operator<<"]}
{"id": "C96", "title": "End to end: the exported NumPy file holds the Green's function over its whole domain", "statement": "After the Green's function of a dipole was calculated and stored by ElectricDipole, the export program opens it, resamples its whole domain (first to last coordinate of the metadata) on an equidistant grid with the cubic kernel and writes a NumPy file; every number in the file is the corresponding component of the interpolated analytic field at the coordinates that belong to its position in the file.", "quantifier": "all dipoles, domains, chunk sizes and numbers of samples", "why_tests_cant": "Depends on where each of the samples falls relative to the chunks, and on every step from the calculator through the files, the index, the cache, the interpolation and the writer.", "anchors": ["examples/plot_greens_function/export_greens_function.cxx: main", "eisvogel/core/impl/GreensFunction.hxx: fill_array, start_coords, end_coords", "eisvogel/core/impl/AnalyticGreensFunctionCalculator.hxx: ElectricDipole", "eisvogel/core/impl/NDVecArray.hxx: to_numpy"]}
{"id": "C97", "title": "Showers of the profile library reach the simulation with their depths and charges", "statement": "A library of shower profiles that was converted with convert_shower_profile.py and loaded with ShowerCreator is the same library: creating a shower of a kind, energy and index uses the corresponding shower of the library, with its depths in kg/m^2 converted to internal units and its charges in Coulomb, up to rounding. A library that does not fit the file format is rejected.", "quantifier": "all libraries (kinds, energies, numbers of showers, depths, charges), requested kinds, energies and indices, and values found in uninitialised memory", "why_tests_cant": "The file has no marks between showers, so that a mistake in one of them affects all later ones; the result depends on the whole library.", "anchors": ["extern/shower_profile/convert_shower_profile.py: write_shower and main loop", "extern/shower_profile/shower_creator/shower_creator.cpp: ShowerCreator::ShowerCreator, read_shower, create_shower"]}
{"id": "C98", "title": "End to end: the exported NumPy file of a MEEP Green's function holds the simulated field over its whole domain", "statement": "After a Green's function was calculated with MEEP in all stages (by any number of processes), the export program opens it, resamples its whole domain on an equidistant grid with the cubic kernel and writes a NumPy file; every number in the file is the corresponding component of the interpolated simulated field at the coordinates that belong to its position in the file.", "quantifier": "all simulations, requested regions, downsampling factors, divisions into simulation chunks, schedules of the processes, chunk sizes and numbers of samples", "why_tests_cant": "Depends on the schedule of the processes, on where each of the samples falls relative to the chunks, and on every step from the simulation through the files, the index, the cache, the interpolation and the writer.", "anchors": ["examples/plot_greens_function/export_greens_function.cxx: main", "eisvogel/core/impl/GreensFunction.hxx: fill_array, start_coords, end_coords", "eisvogel/meep/impl/MEEPCylindricalGreensFunctionCalculator.hxx: Calculate", "eisvogel/core/impl/NDVecArray.hxx: to_numpy"]}
{"id": "C99", "title": "Pictures of an exported Green's function show its samples where and when they belong", "statement": "In stills, animations, pictures of the maximum and annotated pictures, every value appears at the coordinates of its sample; the still for a requested time shows the samples nearest to that time (within one time step), the time written on a frame is the one of its samples, and the series drawn for an annotated position are those of the sample within one step of the position.", "quantifier": "all exported arrays, ranges of coordinates, requested times, steps between frames and annotated positions", "why_tests_cant": "Whether an index is rounded to the right sample or runs past the end depends on the number of samples, the limits and the requested coordinates.", "anchors": ["examples/plot_greens_function/plotting_utils.py: plot_field", "examples/plot_greens_function/greens_function_still.py: greens_function_still", "examples/plot_greens_function/greens_function_absmax.py: greens_function_absmax", "examples/plot_greens_function/greens_function_absmax_annotated.py: pos_to_index, oversample, greens_function_absmax_annotated", "examples/plot_greens_function/animate_greens_function.py: generate_animation"]}
{"id": "C100", "title": "Setting a whole array to one value", "statement": "With positive extents, constructing an array with a value, resizing it with a value and assigning a value make every element that value, whatever was in the memory before; assigned through a view, exactly the elements of the view change. Clearing an owning array makes every element zero. An array with an extent of zero cannot be given a value: the program is stopped by an assertion. Resizing without a value keeps the elements when only the first extent changes; resizing or clearing a view is refused.", "quantifier": "all shapes, previous shapes and contents, views of views, values", "why_tests_cant": "Which scalars are written depends on the strides and offset of the view and on the contents of uninitialised memory.", "anchors": ["eisvogel/core/impl/NDVecArray.hxx: NDVecArray(shape, value), resize, clear, operator=(const T&), fill_from<axis>"]}
{"id": "C101", "title": "Programs that work in different directories do not affect each other", "statement": "Any number of programs use chunk libraries at the same time, each in directories of its own (those it opens, moves to and imports from). In whatever order their calls are made, each program gets the results it gets alone, and leaves in its directories the files it leaves alone; files in other directories do not change. So what holds of one program's calls (C28 to C31, C47) holds of every program in the interleaving.", "quantifier": "all programs (any number), lists of calls, interleavings of the calls, disjoint sets of directories, initial file systems, cache sizes", "why_tests_cant": "The interleavings are unboundedly many; whether a call depends on files elsewhere is a question about all files and all states of the caches.", "anchors": ["eisvogel/core/impl/DistributedNDVecArray.hxx: ChunkLibrary, ChunkCache, ChunkIndex"]}
{"id": "C102", "title": "The processes of a field calculation may run at the same time", "statement": "The processes of a calculation of a Green's function run in parallel: their library calls and MEEP callbacks happen in an arbitrary order. If each process has its own working and output directories, the calculation succeeds whenever it succeeds with one process after the other, and leaves the same files. So the merged result holds the samples of the field (C61).", "quantifier": "all numbers of processes, divisions into simulation chunks, fields, numbers of steps, and interleavings of the steps of the processes", "why_tests_cant": "The interleavings are unboundedly many and depend on the scheduling of the MPI processes.", "anchors": ["eisvogel/meep/impl/MEEPCylindricalGreensFunctionCalculator.hxx: calculate_mpi_chunk, merge_mpi_chunks, rechunk_mpi, callbacks"]}
{"id": "C103", "title": "Several programs may read the same libraries at the same time", "statement": "After any allowed history of writing, in which all libraries were closed, any number of programs open existing libraries, the same or different ones, with caches of any sizes, read elements and regions, ask for the bounding box, loop over chunks, and close them again. In whatever order the programs take their turns, all of their calls succeed, no file is changed, and each program gets the values that were written.", "quantifier": "all configurations, writing histories, numbers of reading programs, sequences of reading calls, cache sizes, tree insertion orders, and interleavings of the calls", "why_tests_cant": "Unboundedly many interleavings of several operating system processes; a test sees the few that the scheduler happens to produce.", "anchors": ["eisvogel/core/impl/DistributedNDVecArray.hxx: DistributedNDVecArray constructor and destructor, operator[], FillArray, ChunkIndex::FlushIndex, ChunkIndex::load_index_entries, ChunkCache::SyncCacheWithDisk"]}
