import Verif.Bytes.Model
/-
C10 (scalars), C11 (aggregates), C12 (float vectors and block sizes).
-/
namespace Verif.Bytes
open Verif

/-! Specification: big-endian representation, independent of the model. -/

/-- The `n` bytes of `v`, most significant first. -/
def bigEndian (n v : Nat) : List Nat := (List.range n).map fun k => v / 256 ^ (n - 1 - k) % 256

/-- The codec `c` round-trips the value `a`: reading back returns `a` and stops right behind it. -/
def RoundTrips {α : Type} (c : Codec α) (a : α) : Prop :=
  ∀ rest, c.deser (c.ser a ++ rest) = .ok (a, rest)

/-! lemmas -/

theorem length_leBytes : ∀ n v, (leBytes n v).length = n
  | 0, _ => rfl
  | n + 1, v => by simp [leBytes, length_leBytes n]

theorem leVal_leBytes : ∀ n v, leVal (leBytes n v) = v % 256 ^ n
  | 0, v => by simp [leBytes, leVal, Nat.mod_one]
  | n + 1, v => by
      rw [leBytes, leVal, leVal_leBytes n, Nat.pow_succ, Nat.mul_comm (256 ^ n), Nat.mod_mul]

theorem leBytes_leVal : ∀ (l : List Nat), (∀ b ∈ l, b < 256) → leBytes l.length (leVal l) = l
  | [], _ => rfl
  | b :: bs, h => by
      have hb := h b (by simp)
      have ih := leBytes_leVal bs (fun x hx => h x (by simp [hx]))
      rw [List.length_cons, leBytes, leVal, Nat.add_mul_mod_self_left, Nat.mod_eq_of_lt hb,
        Nat.add_mul_div_left _ _ (by omega), Nat.div_eq_of_lt hb, Nat.zero_add, ih]

theorem leBytes_lt : ∀ n v b, b ∈ leBytes n v → b < 256
  | 0, _, _, h => by simp [leBytes] at h
  | n + 1, v, b, h => by
      rw [leBytes] at h
      rcases List.mem_cons.1 h with rfl | h
      · omega
      · exact leBytes_lt n _ b h

theorem leBytes_congr : ∀ n v w, v % 256 ^ n = w % 256 ^ n → leBytes n v = leBytes n w
  | n, v, w, h => by
      have h1 := leBytes_leVal (leBytes n v) (leBytes_lt n v)
      have h2 := leBytes_leVal (leBytes n w) (leBytes_lt n w)
      rw [length_leBytes, leVal_leBytes] at h1 h2
      rw [← h1, ← h2, h]

theorem getElem?_leBytes : ∀ n v k, k < n → (leBytes n v)[k]? = some (v / 256 ^ k % 256)
  | 0, _, k, h => by omega
  | n + 1, v, 0, _ => by simp [leBytes]
  | n + 1, v, k + 1, h => by
      rw [leBytes, List.getElem?_cons_succ, getElem?_leBytes n _ k (by omega), Nat.pow_succ, Nat.mul_comm,
        Nat.div_div_eq_div_mul]

theorem bigEndian_eq (n v : Nat) : bigEndian n v = (leBytes n v).reverse := by
  apply List.ext_getElem?
  intro k
  by_cases hk : k < n
  · rw [List.getElem?_reverse (by rw [length_leBytes]; exact hk), length_leBytes,
      getElem?_leBytes _ _ _ (by omega)]
    simp [bigEndian, hk]
  · rw [List.getElem?_eq_none (by simp [bigEndian]; omega), List.getElem?_eq_none (by simp [length_leBytes]; omega)]

theorem leBytes_append : ∀ n m v, leBytes (n + m) v = leBytes n v ++ leBytes m (v / 256 ^ n)
  | 0, m, v => by simp [leBytes]
  | n + 1, m, v => by
      rw [Nat.succ_add, leBytes, leBytes, leBytes_append n m, List.cons_append, Nat.div_div_eq_div_mul, Nat.pow_succ,
        Nat.mul_comm 256]

theorem leBytes_htonl (v : Nat) : leBytes 4 (htonl .little v) = (leBytes 4 v).reverse := by
  have := leBytes_leVal (leBytes 4 v).reverse (fun b hb => leBytes_lt 4 v b (by simpa using hb))
  rw [List.length_reverse, length_leBytes] at this
  exact this

theorem htonl_lt (v : Nat) : htonl .little v < 2 ^ 32 := by
  have h : (leBytes 4 v).reverse = leBytes 4 (htonl .little v) := (leBytes_htonl v).symm
  unfold htonl
  rw [h, leVal_leBytes]
  exact Nat.mod_lt _ (by decide)

theorem htonl_invol (v : Nat) (hv : v < 2 ^ 32) : htonl .little (htonl .little v) = v := by
  rw [htonl, leBytes_htonl, List.reverse_reverse, leVal_leBytes]
  exact Nat.mod_eq_of_lt hv

theorem htonll_little (x : Nat) : htonll .little x = htonl .little (x % 2 ^ 32) * 2 ^ 32 + htonl .little (x / 2 ^ 32) := by
  unfold htonll
  rw [if_neg (by decide)]

theorem leBytes8_htonll (x : Nat) : leBytes 8 (htonll .little x) = (leBytes 8 x).reverse := by
  have h1 := htonl_lt (x / 2 ^ 32)
  rw [show (8 : Nat) = 4 + 4 from rfl, leBytes_append 4 4 x, leBytes_append, List.reverse_append, htonll_little,
    show (256 : Nat) ^ 4 = 2 ^ 32 from by decide]
  congr 1
  · rw [← leBytes_htonl]
    apply leBytes_congr
    rw [show (256 : Nat) ^ 4 = 2 ^ 32 from by decide]
    omega
  · have : (htonl .little (x % 2 ^ 32) * 2 ^ 32 + htonl .little (x / 2 ^ 32)) / 2 ^ 32 = htonl .little (x % 2 ^ 32) := by
      omega
    rw [this, leBytes_htonl]
    congr 1
    apply leBytes_congr
    rw [show (256 : Nat) ^ 4 = 2 ^ 32 from by decide]
    omega

theorem htonll_invol (x : Nat) (hx : x < 2 ^ 64) : htonll .little (htonll .little x) = x := by
  have h : htonll .little (htonll .little x) < 2 ^ 64 := by
    rw [htonll_little (htonll .little x)]
    have h1 := htonl_lt (htonll .little x % 2 ^ 32)
    have h2 := htonl_lt (htonll .little x / 2 ^ 32)
    omega
  have h2 := leVal_leBytes 8 (htonll .little (htonll .little x))
  rw [leBytes8_htonll, leBytes8_htonll, List.reverse_reverse, leVal_leBytes,
    show (256 : Nat) ^ 8 = 2 ^ 64 from by decide, Nat.mod_eq_of_lt hx, Nat.mod_eq_of_lt h] at h2
  exact h2.symm

theorem takeBytes_append {n : Nat} (a b : List Nat) (h : a.length = n) : takeBytes n (a ++ b) = .ok (a, b) := by
  subst h
  unfold takeBytes
  rw [if_pos (by simp)]
  simp

theorem length_mem (h : Host) (n v : Nat) : (mem h n v).length = n := by
  cases h <;> simp [mem, length_leBytes]

theorem htonll_big (v : Nat) : htonll .big v = v := by simp [htonll, htonl]

/-! ### C10 -/

/-- **C10**  Writing a 32-bit integer (or float, given by its bits) produces its four bytes, most significant first,
    on every host; reading returns the value and consumes exactly these bytes. -/
theorem C10_u32 (h : Host) (v : Nat) (hv : v < 2 ^ 32) :
    (u32 h).ser v = bigEndian 4 v ∧ RoundTrips (u32 h) v ∧ (f32 h).ser v = bigEndian 4 v ∧ RoundTrips (f32 h) v := by
  have h1 : (u32 h).ser v = bigEndian 4 v := by
    rw [bigEndian_eq]
    cases h
    · exact leBytes_htonl v
    · rfl
  have h2 : RoundTrips (u32 h) v := by
    intro rest
    simp only [u32]
    rw [takeBytes_append _ _ (length_mem _ _ _)]
    simp only [Res.ok_bind]
    cases h
    · simp only [unmem, mem]
      rw [leVal_leBytes, show (256 : Nat) ^ 4 = 2 ^ 32 from by decide, Nat.mod_eq_of_lt (htonl_lt v), htonl_invol v hv]
    · simp only [unmem, mem, htonl, List.reverse_reverse]
      rw [leVal_leBytes, show (256 : Nat) ^ 4 = 2 ^ 32 from by decide, Nat.mod_eq_of_lt hv]
  exact ⟨h1, h2, h1, h2⟩

/-- **C10**  The same for 64-bit integers and doubles. -/
theorem C10_u64 (h : Host) (v : Nat) (hv : v < 2 ^ 64) :
    (u64 h).ser v = bigEndian 8 v ∧ RoundTrips (u64 h) v ∧ (f64 h).ser v = bigEndian 8 v ∧ RoundTrips (f64 h) v := by
  have h1 : (u64 h).ser v = bigEndian 8 v := by
    rw [bigEndian_eq]
    cases h
    · exact leBytes8_htonll v
    · simp only [u64, htonll_big]; rfl
  have h2 : RoundTrips (u64 h) v := by
    intro rest
    simp only [u64]
    rw [takeBytes_append _ _ (length_mem _ _ _)]
    simp only [Res.ok_bind]
    cases h
    · simp only [unmem, mem]
      have hlt : htonll .little v < 2 ^ 64 := by
        rw [htonll_little]
        have h1 := htonl_lt (v % 2 ^ 32)
        have h2 := htonl_lt (v / 2 ^ 32)
        omega
      rw [leVal_leBytes, show (256 : Nat) ^ 8 = 2 ^ 64 from by decide, Nat.mod_eq_of_lt hlt, htonll_invol v hv]
    · simp only [unmem, mem, htonll_big, List.reverse_reverse]
      rw [leVal_leBytes, show (256 : Nat) ^ 8 = 2 ^ 64 from by decide, Nat.mod_eq_of_lt hv]
  exact ⟨h1, h2, h1, h2⟩

/-- **C10**  A file written on one host is read back on a host of the other byte order. -/
theorem C10_portable (h h' : Host) (v : Nat) (rest : List Nat) :
    (v < 2 ^ 32 → (u32 h').deser ((u32 h).ser v ++ rest) = .ok (v, rest)) ∧
    (v < 2 ^ 64 → (u64 h').deser ((u64 h).ser v ++ rest) = .ok (v, rest)) := by
  refine ⟨fun hv => ?_, fun hv => ?_⟩
  · rw [(C10_u32 h v hv).1, ← (C10_u32 h' v hv).1]
    exact (C10_u32 h' v hv).2.1 rest
  · rw [(C10_u64 h v hv).1, ← (C10_u64 h' v hv).1]
    exact (C10_u64 h' v hv).2.1 rest

example : (u32 .little).ser 0x01020304 = [1, 2, 3, 4] := by decide
example : (u64 .little).ser 0x0102030405060708 = [1, 2, 3, 4, 5, 6, 7, 8] := by decide

/-! ### C11 -/

variable {α β : Type}

theorem deserN_roundTrip (c : Codec α) : ∀ (l : List α), (∀ a ∈ l, RoundTrips c a) →
    ∀ rest, deserN c l.length (l.flatMap c.ser ++ rest) = .ok (l, rest)
  | [], _, rest => rfl
  | a :: l, h, rest => by
      rw [List.length_cons, deserN, List.flatMap_cons, List.append_assoc, h a (by simp)]
      simp only [Res.ok_bind]
      rw [deserN_roundTrip c l (fun x hx => h x (by simp [hx]))]
      rfl

/-- **C11**  `std::vector<T>` of any length representable in `std::size_t`, for any element type that round-trips. -/
theorem C11_vector (h : Host) (c : Codec α) (l : List α) (hl : l.length < 2 ^ 64) (hc : ∀ a ∈ l, RoundTrips c a) :
    RoundTrips (vector h c) l := by
  intro rest
  simp only [vector]
  rw [List.append_assoc, (C10_u64 h _ hl).2.1]
  simp only [Res.ok_bind]
  exact deserN_roundTrip c l hc rest

/-- **C11**  `std::array<T, n>` and `Vector<T, n>`. -/
theorem C11_array (n : Nat) (c : Codec α) (l : List α) (hl : l.length = n) (hc : ∀ a ∈ l, RoundTrips c a) :
    RoundTrips (array n c) l := by
  intro rest
  subst hl
  exact deserN_roundTrip c l hc rest

/-- **C11**  `std::string`. -/
theorem C11_string (h : Host) (l : List Nat) (hl : l.length < 2 ^ 64) : RoundTrips (string h) l := by
  intro rest
  simp only [string]
  rw [List.append_assoc, (C10_u64 h _ hl).2.1]
  simp only [Res.ok_bind]
  exact takeBytes_append l rest rfl

theorem mapInsert_last (lt : α → α → Bool) (hasym : ∀ a b, lt a b = true → lt b a = false) (k : α) (v : β) :
    ∀ m : List (α × β), (∀ p ∈ m, lt p.1 k = true) → mapInsert lt k v m = m ++ [(k, v)]
  | [], _ => rfl
  | (k', v') :: m, h => by
      have hk := h (k', v') (by simp)
      have hk' := hasym _ _ hk
      simp only at hk hk'
      rw [mapInsert, if_neg (by simp [hk']), if_pos hk, mapInsert_last lt hasym k v m (fun p hp => h p (by simp [hp]))]
      rfl

theorem foldl_mapInsert (lt : α → α → Bool) (hasym : ∀ a b, lt a b = true → lt b a = false) :
    ∀ (m acc : List (α × β)), (acc ++ m).Pairwise (fun p q => lt p.1 q.1 = true) →
    m.foldl (fun m p => mapInsert lt p.1 p.2 m) acc = acc ++ m
  | [], acc, _ => by simp
  | p :: m, acc, h => by
      rw [List.foldl_cons, mapInsert_last lt hasym p.1 p.2 acc, foldl_mapInsert lt hasym m (acc ++ [(p.1, p.2)])]
      · simp
      · simpa using h
      · intro q hq
        exact (List.pairwise_append.1 h).2.2 q hq p (by simp)

/-- **C11**  `std::map<K, V>`: a map (keys increasing with respect to the key order). -/
theorem C11_map (h : Host) (lt : α → α → Bool) (hasym : ∀ a b, lt a b = true → lt b a = false)
    (ck : Codec α) (cv : Codec β) (m : List (α × β)) (hm : m.Pairwise fun p q => lt p.1 q.1 = true)
    (hl : m.length < 2 ^ 64) (hck : ∀ p ∈ m, RoundTrips ck p.1) (hcv : ∀ p ∈ m, RoundTrips cv p.2) :
    RoundTrips (map h lt ck cv) m := by
  intro rest
  simp only [map]
  rw [List.append_assoc, C11_vector h ck (m.map Prod.fst) (by simpa using hl)
    (by intro a ha; obtain ⟨p, hp, rfl⟩ := List.mem_map.1 ha; exact hck p hp)]
  simp only [Res.ok_bind]
  rw [C11_vector h cv (m.map Prod.snd) (by simpa using hl)
    (by intro a ha; obtain ⟨p, hp, rfl⟩ := List.mem_map.1 ha; exact hcv p hp)]
  simp only [Res.ok_bind]
  rw [if_neg (by simp), ← List.unzip_fst, ← List.unzip_snd, List.zip_unzip, foldl_mapInsert lt hasym m [] (by simpa using hm)]
  simp

/-- **C11**  A `map` record whose two halves disagree in length is refused. -/
theorem C11_map_mismatch_throws (h : Host) (lt : α → α → Bool) (ck : Codec α) (cv : Codec β) (ks : List α) (vs : List β)
    (hk : ks.length < 2 ^ 64) (hv : vs.length < 2 ^ 64) (hck : ∀ a ∈ ks, RoundTrips ck a) (hcv : ∀ b ∈ vs, RoundTrips cv b)
    (hne : ks.length ≠ vs.length) (rest : List Nat) :
    (map h lt ck cv).deser ((vector h ck).ser ks ++ (vector h cv).ser vs ++ rest) = .throw := by
  simp only [map]
  rw [List.append_assoc, C11_vector h ck ks hk hck]
  simp only [Res.ok_bind]
  rw [C11_vector h cv vs hv hcv]
  simp only [Res.ok_bind]
  rw [if_pos hne]

/-- The value stored under the key `k`: that of the first pair whose key is equivalent to `k`. -/
def valueOf (lt : α → α → Bool) (k : α) (m : List (α × β)) : Option β := (m.find? fun p => !lt k p.1 && !lt p.1 k).map Prod.snd

theorem mapInsert_spec (lt : α → α → Bool) (irr : ∀ a, lt a a = false) (htr : ∀ a b c, lt a b = true → lt b c = true → lt a c = true)
    (heq : ∀ a b, lt a b = false → lt b a = false → a = b) (k : α) (v : β) : ∀ m : List (α × β), m.Pairwise (fun p q => lt p.1 q.1 = true) →
    (mapInsert lt k v m).Pairwise (fun p q => lt p.1 q.1 = true) ∧ (∀ q ∈ mapInsert lt k v m, q = (k, v) ∨ q ∈ m) ∧
    ∀ k', valueOf lt k' (mapInsert lt k v m) = (valueOf lt k' m).or (if !lt k' k && !lt k k' then some v else none)
  | [], _ => by
      refine ⟨by simp [mapInsert], by simp [mapInsert], fun k' => ?_⟩
      simp only [mapInsert, valueOf, List.find?_cons, List.find?_nil]
      split <;> simp_all
  | (k1, v1) :: m, h => by
      obtain ⟨i1, i2, i3⟩ := mapInsert_spec lt irr htr heq k v m (List.pairwise_cons.1 h).2
      have h1 := (List.pairwise_cons.1 h).1
      unfold mapInsert
      by_cases c1 : lt k k1 = true
      · rw [if_pos c1]
        refine ⟨List.pairwise_cons.2 ⟨fun q hq => ?_, h⟩, fun q hq => by simpa using hq, fun k' => ?_⟩
        · rcases List.mem_cons.1 hq with e | e
          · rw [e]; exact c1
          · exact htr _ _ _ c1 (h1 q e)
        · by_cases e : (!lt k' k && !lt k k') = true
          · have ek : k' = k := heq _ _ (by simp at e; exact e.1) (by simp at e; exact e.2)
            have none : valueOf lt k' ((k1, v1) :: m) = none := by
              unfold valueOf
              rw [List.find?_eq_none.2]
              · rfl
              · intro q hq
                have : lt k' q.1 = true := by
                  rw [ek]
                  rcases List.mem_cons.1 hq with e | e
                  · rw [e]; exact c1
                  · exact htr _ _ _ c1 (h1 q e)
                simp [this]
            rw [none, if_pos e]
            unfold valueOf
            rw [List.find?_cons]
            simp only [e]
            rfl
          · rw [if_neg e]
            unfold valueOf
            rw [List.find?_cons]
            simp only [e]
            simp
      · rw [if_neg c1]
        have c1' : lt k k1 = false := by simpa using c1
        by_cases c2 : lt k1 k = true
        · rw [if_pos c2]
          refine ⟨List.pairwise_cons.2 ⟨fun q hq => ?_, i1⟩, fun q hq => ?_, fun k' => ?_⟩
          · rcases i2 q hq with e | e
            · rw [e]; exact c2
            · exact h1 q e
          · rcases List.mem_cons.1 hq with e | e
            · right; simp [e]
            · rcases i2 q e with e | e
              · left; exact e
              · right; simp [e]
          · have := i3 k'
            unfold valueOf at this ⊢
            rw [List.find?_cons, List.find?_cons]
            split
            · rfl
            · exact this
        · rw [if_neg c2]
          have ek : k = k1 := heq _ _ c1' (by simpa using c2)
          refine ⟨h, fun q hq => Or.inr hq, fun k' => ?_⟩
          unfold valueOf
          rw [List.find?_cons, ← ek]
          cases e : (!lt k' k && !lt k k') with
          | true => simp
          | false => simp

theorem foldl_mapInsert_value (lt : α → α → Bool) (irr : ∀ a, lt a a = false) (htr : ∀ a b c, lt a b = true → lt b c = true → lt a c = true)
    (heq : ∀ a b, lt a b = false → lt b a = false → a = b) : ∀ (l acc : List (α × β)), acc.Pairwise (fun p q => lt p.1 q.1 = true) →
    (l.foldl (fun m p => mapInsert lt p.1 p.2 m) acc).Pairwise (fun p q => lt p.1 q.1 = true) ∧
    ∀ k, valueOf lt k (l.foldl (fun m p => mapInsert lt p.1 p.2 m) acc) = (valueOf lt k acc).or (valueOf lt k l)
  | [], acc, h => ⟨h, fun k => by simp [valueOf]⟩
  | p :: l, acc, h => by
      obtain ⟨i1, -, i3⟩ := mapInsert_spec lt irr htr heq p.1 p.2 acc h
      obtain ⟨j1, j2⟩ := foldl_mapInsert_value lt irr htr heq l (mapInsert lt p.1 p.2 acc) i1
      refine ⟨j1, fun k => ?_⟩
      rw [List.foldl_cons, j2 k, i3 k, Option.or_assoc]
      congr 1
      unfold valueOf
      rw [List.find?_cons]
      cases (!lt k p.1 && !lt p.1 k) <;> simp

/-- **C11**  A `map` record with any keys, in any order and possibly repeated: the result is a map (increasing keys), and every key has the value that belongs to its first
    occurrence in the record. -/
theorem C11_map_any_keys (h : Host) (lt : α → α → Bool) (irr : ∀ a, lt a a = false) (htr : ∀ a b c, lt a b = true → lt b c = true → lt a c = true)
    (heq : ∀ a b, lt a b = false → lt b a = false → a = b) (ck : Codec α) (cv : Codec β) (l : List (α × β))
    (hl : l.length < 2 ^ 64) (hck : ∀ p ∈ l, RoundTrips ck p.1) (hcv : ∀ p ∈ l, RoundTrips cv p.2) (rest : List Nat) :
    ∃ m, (map h lt ck cv).deser ((vector h ck).ser (l.map Prod.fst) ++ (vector h cv).ser (l.map Prod.snd) ++ rest) = .ok (m, rest) ∧
      m.Pairwise (fun p q => lt p.1 q.1 = true) ∧ ∀ k, valueOf lt k m = valueOf lt k l := by
  obtain ⟨j1, j2⟩ := foldl_mapInsert_value (β := β) lt irr htr heq l [] (by simp)
  refine ⟨_, ?_, j1, fun k => by rw [j2 k]; simp [valueOf]⟩
  simp only [map]
  rw [List.append_assoc, C11_vector h ck (l.map Prod.fst) (by simpa using hl)
    (by intro a ha; obtain ⟨p, hp, rfl⟩ := List.mem_map.1 ha; exact hck p hp)]
  simp only [Res.ok_bind]
  rw [C11_vector h cv (l.map Prod.snd) (by simpa using hl)
    (by intro a ha; obtain ⟨p, hp, rfl⟩ := List.mem_map.1 ha; exact hcv p hp)]
  simp only [Res.ok_bind]
  rw [if_neg (by simp), ← List.unzip_fst, ← List.unzip_snd, List.zip_unzip]

example : ((map .little (fun a b : Nat => decide (a < b)) (u32 .little) (u32 .little)).deser
    ((vector .little (u32 .little)).ser [7, 3, 7] ++ (vector .little (u32 .little)).ser [1, 2, 9] ++ [5])) = .ok ([(3, 2), (7, 1)], [5]) := by decide +kernel

/-- **C11**  Green's function metadata: three coordinate vectors of three floats. -/
theorem C11_greens_function_metadata (h : Host) (m : GFMeta)
    (h1 : m.start_pos.length = 3 ∧ ∀ v ∈ m.start_pos, v < 2 ^ 32)
    (h2 : m.end_pos.length = 3 ∧ ∀ v ∈ m.end_pos, v < 2 ^ 32)
    (h3 : m.sample_interval.length = 3 ∧ ∀ v ∈ m.sample_interval, v < 2 ^ 32) :
    RoundTrips (gfMeta h) m := by
  intro rest
  have rt : ∀ l : List Nat, (∀ v ∈ l, v < 2 ^ 32) → ∀ v ∈ l, RoundTrips (f32 h) v :=
    fun l hl v hv => (C10_u32 h v (hl v hv)).2.1
  simp only [gfMeta]
  rw [List.append_assoc, List.append_assoc, C11_array 3 (f32 h) m.start_pos h1.1 (rt _ h1.2)]
  simp only [Res.ok_bind]
  rw [C11_array 3 (f32 h) m.end_pos h2.1 (rt _ h2.2)]
  simp only [Res.ok_bind]
  rw [C11_array 3 (f32 h) m.sample_interval h3.1 (rt _ h3.2)]
  rfl

/-- **C11**  Two records one after the other: the second is read from where the first ended. -/
theorem C11_concatenation (c : Codec α) (d : Codec β) (a : α) (b : β) (ha : RoundTrips c a) (hb : RoundTrips d b)
    (rest : List Nat) :
    ((c.deser (c.ser a ++ (d.ser b ++ rest))).bind fun r => (d.deser r.2).bind fun q => .ok ((r.1, q.1), q.2))
      = .ok ((a, b), rest) := by
  rw [ha]
  simp only [Res.ok_bind]
  rw [hb]
  rfl

/-- Nesting: vectors of vectors of 64-bit integers. -/
example (h : Host) (l : List (List Nat)) (h1 : l.length < 2 ^ 64) (h2 : ∀ v ∈ l, v.length < 2 ^ 64 ∧ ∀ x ∈ v, x < 2 ^ 64) :
    RoundTrips (vector h (vector h (u64 h))) l :=
  C11_vector h _ l h1 fun v hv => C11_vector h _ v (h2 v hv).1 fun x hx => (C10_u64 h x ((h2 v hv).2 x hx)).2.1

example : (vector .little (u32 .little)).ser [7, 8] = [0,0,0,0,0,0,0,2, 0,0,0,7, 0,0,0,8] := by decide
example : (map .little (fun a b => decide (a < b)) (u32 .little) (u32 .little)).deser
    ((map .little (fun a b => decide (a < b)) (u32 .little) (u32 .little)).ser [(1, 10), (3, 30)] ++ [9])
    = .ok ([(1, 10), (3, 30)], [9]) := by decide

/-! ### C12 -/

theorem serBlocks_eq (h : Host) (bs : Nat) (hbs : 0 < bs) (l : List Nat) :
    serBlocks h bs l = .ok (l.flatMap (u32 h).ser) := by
  fun_induction serBlocks h bs l with
  | case1 => simp
  | case2 l hb hne ih =>
      rw [ih]
      simp only [Res.ok_bind]
      congr 1
      show (l.take bs).flatMap (u32 h).ser ++ _ = _
      rw [← List.flatMap_append, List.take_append_drop]
  | case3 l h1 h2 => exact absurd ⟨hbs, h1⟩ h2

theorem words_flatMap (h : Host) : ∀ (l : List Nat), (∀ v ∈ l, v < 2 ^ 32) →
    (words h l.length (l.flatMap (u32 h).ser)).map (htonl h) = l
  | [], _ => rfl
  | v :: l, hv => by
      have hlen : ((u32 h).ser v).length = 4 := length_mem h 4 _
      have hd := (C10_u32 h v (hv v (by simp))).2.1 []
      rw [List.append_nil] at hd
      simp only [u32] at hd
      rw [show mem h 4 (htonl h v) = mem h 4 (htonl h v) ++ [] by simp, takeBytes_append _ _ (length_mem _ _ _)] at hd
      simp only [Res.ok_bind] at hd
      have hd' : htonl h (unmem h (mem h 4 (htonl h v))) = v := by
        have := Res.ok.inj hd
        exact (Prod.mk.inj this).1
      rw [List.length_cons, words, List.map_cons, List.flatMap_cons, List.take_append_of_le_length (by omega),
        List.take_of_length_le (by omega), List.drop_append_of_le_length (by omega), List.drop_of_length_le (by omega),
        List.nil_append, words_flatMap h l (fun x hx => hv x (by simp [hx]))]
      rw [show (u32 h).ser v = mem h 4 (htonl h v) from rfl, hd']

theorem length_flatMap_u32 (h : Host) : ∀ l : List Nat, (l.flatMap (u32 h).ser).length = 4 * l.length
  | [] => rfl
  | v :: l => by
      rw [List.flatMap_cons, List.length_append, length_flatMap_u32 h l, List.length_cons]
      have hlen : ((u32 h).ser v).length = 4 := length_mem h 4 _
      omega

theorem deserBlocks_eq (h : Host) (bs : Nat) (hbs : 0 < bs) (rest : List Nat) : ∀ (n : Nat) (l : List Nat), l.length = n →
    (∀ v ∈ l, v < 2 ^ 32) → deserBlocks h bs n (l.flatMap (u32 h).ser ++ rest) = .ok (l, rest) := by
  intro n
  induction n using Nat.strongRecOn with
  | ind n ih =>
    intro l hl hv
    unfold deserBlocks
    by_cases hn : n = 0
    · subst hn
      have : l = [] := List.length_eq_zero_iff.1 hl
      subst this
      simp
    · rw [if_neg hn, dif_pos ⟨hbs, by omega⟩]
      have hsplit : l = l.take (min n bs) ++ l.drop (min n bs) := (List.take_append_drop _ _).symm
      have htl : (l.take (min n bs)).length = min n bs := by rw [List.length_take]; omega
      have e1 : l.flatMap (u32 h).ser ++ rest
          = (l.take (min n bs)).flatMap (u32 h).ser ++ ((l.drop (min n bs)).flatMap (u32 h).ser ++ rest) := by
        conv => lhs; rw [hsplit, List.flatMap_append, List.append_assoc]
      rw [e1, takeBytes_append _ _ (by rw [length_flatMap_u32, htl])]
      simp only [Res.ok_bind]
      rw [ih (n - min n bs) (by omega) (l.drop (min n bs)) (by rw [List.length_drop]; omega)
        (fun v hx => hv v (List.mem_of_mem_drop hx))]
      simp only [Res.ok_bind]
      have hw := words_flatMap h (l.take (min n bs)) (fun v hx => hv v (List.mem_of_mem_take hx))
      rw [htl] at hw
      rw [hw, List.take_append_drop]

/-- **C12**  The bytes written for a float vector do not depend on the (positive) block size and are those of the
    plain vector format; what is written with block size `bs` is read back with any positive block size `bs'`. -/
theorem C12_block_size_independent (h : Host) (bs bs' : Nat) (hbs : 0 < bs) (hbs' : 0 < bs') (l : List Nat)
    (hl : l.length < 2 ^ 64) (hv : ∀ v ∈ l, v < 2 ^ 32) :
    ∃ bytes, serFloatVec h bs l = .ok bytes ∧ serFloatVec h bs' l = .ok bytes ∧
      bytes = bigEndian 8 l.length ++ l.flatMap (bigEndian 4) ∧
      ∀ rest, deserFloatVec h bs' (bytes ++ rest) = .ok (l, rest) := by
  refine ⟨(u64 h).ser l.length ++ l.flatMap (u32 h).ser, ?_, ?_, ?_, ?_⟩
  · rw [serFloatVec, serBlocks_eq h bs hbs]; rfl
  · rw [serFloatVec, serBlocks_eq h bs' hbs']; rfl
  · rw [(C10_u64 h _ hl).1]
    congr 1
    have : ∀ l : List Nat, (∀ v ∈ l, v < 2 ^ 32) → l.flatMap (u32 h).ser = l.flatMap (bigEndian 4) := by
      intro l
      induction l with
      | nil => intro _; rfl
      | cons v l ih =>
        intro hv
        rw [List.flatMap_cons, List.flatMap_cons, ih (fun x hx => hv x (by simp [hx])), (C10_u32 h v (hv v (by simp))).1]
    exact this l hv
  · intro rest
    rw [deserFloatVec, List.append_assoc, (C10_u64 h _ hl).2.1]
    simp only [Res.ok_bind]
    exact deserBlocks_eq h bs' hbs' rest _ l rfl hv

/-- **C12 (limit)**  Block size zero never terminates on a non-empty vector. -/
theorem C12_block_size_zero_diverges (h : Host) (l : List Nat) (hl : l ≠ []) : serFloatVec h 0 l = .diverge := by
  unfold serFloatVec serBlocks
  rw [if_neg hl, dif_neg (by omega)]
  rfl

example : serFloatVec .little 2 [1, 2, 3] = .ok [0,0,0,0,0,0,0,3, 0,0,0,1, 0,0,0,2, 0,0,0,3] := by decide +kernel
example : deserFloatVec .little 5 [0,0,0,0,0,0,0,3, 0,0,0,1, 0,0,0,2, 0,0,0,3, 77] = .ok ([1, 2, 3], [77]) := by
  decide +kernel

end Verif.Bytes
