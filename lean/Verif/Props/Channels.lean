import Verif.Lemmas.Channels
import Verif.Props.Section
import Verif.Lemmas.Index

/-!
# C111: vector pixels

A raster of vector pixels is stored as a raster of structures, along the first axis, or along the last axis
(doc/channels.dox).
-/

namespace Litl

open Spec Litl.Channels

variable {α β : Type _}

namespace Spec

/-- The raster of scalars which represents a raster of pixels of `n` components along the first axis: same number of values,
and component `c` of the pixel at `p` is the value at `(c, p)`. -/
def AlongFirst (n : Nat) (pixels : Raster (List α)) (scalars : Raster α) : Prop :=
  scalars.shape = (n : Int) :: pixels.shape ∧ scalars.data.length = n * pixels.data.length ∧
    ∀ p, InShape pixels.shape p → ∃ x : List α, pixels.get p = .ok x ∧ x.length = n ∧
      ∀ (c : Nat) (hc : c < x.length), scalars.get ((c : Int) :: p) = .ok x[c]

end Spec

/-- Components of the pixels in the flattened data. -/
theorem flatten_getElem {n : Nat} : ∀ {pixels : List (List α)}, (∀ x ∈ pixels, x.length = n) → ∀ {k c : Nat}, c < n →
    pixels.flatten[n * k + c]? = pixels[k]?.bind fun x => x[c]? := by
  intro pixels
  induction pixels with
  | nil => intro _ k c _; simp
  | cons x xs ih =>
    intro h k c hc
    have hx : x.length = n := h x (by simp)
    rw [List.flatten_cons]
    cases k with
    | zero => rw [List.getElem?_append_left (by omega)]; simp
    | succ k =>
      have hm : n * (k + 1) = n * k + n := by ring
      rw [List.getElem?_append_right (by omega), show n * (k + 1) + c - x.length = n * k + c by omega,
        ih (fun y hy => h y (by simp [hy])) hc]
      simp

theorem flatten_length {n : Nat} {pixels : List (List α)} (h : ∀ x ∈ pixels, x.length = n) :
    pixels.flatten.length = n * pixels.length := by
  induction pixels with
  | nil => simp
  | cons x xs ih =>
    rw [List.flatten_cons, List.length_append, ih fun y hy => h y (by simp [hy]), h x (by simp), List.length_cons]
    ring

/-- **C111**: "the memory layout in the underlying 1D container is exactly the same as with the dedicated structure
strategy" (doc/channels.dox): the components of the pixels one after the other are the values of the raster whose first axis
is that of the components. -/
theorem C111_layout (n : Nat) (s : Position) (pixels : List (List α)) (hl : (pixels.length : Int) = pixelCount s)
    (hn : ∀ x ∈ pixels, x.length = n) : AlongFirst n ⟨s, pixels⟩ ⟨(n : Int) :: s, pixels.flatten⟩ := by
  refine ⟨rfl, flatten_length hn, fun p hp => ?_⟩
  obtain ⟨h0, h1⟩ := index_bounds hp
  obtain ⟨k, hk⟩ := Int.eq_ofNat_of_zero_le h0
  have hkl : k < pixels.length := by
    have : (k : Int) < pixels.length := by rw [hl, ← hk]; exact h1
    exact_mod_cast this
  have hx : pixels[k].length = n := hn _ (List.getElem_mem hkl)
  refine ⟨pixels[k], ?_, hx, fun c hc => ?_⟩
  · change readAt pixels (index s p) = _
    rw [hk, readAt_nat, List.getElem?_eq_getElem hkl]
  · change readAt pixels.flatten (index ((n : Int) :: s) ((c : Int) :: p)) = _
    rw [index_cons hp.length_eq, hk, show ((c : Int) + n * k) = ((n * k + c : Nat) : Int) by push_cast; ring, readAt_nat,
      flatten_getElem hn (by omega), List.getElem?_eq_getElem hkl, Option.bind_some, List.getElem?_eq_getElem hc]

/-- Non-vacuity: two by two pixels of three components. -/
example : AlongFirst 3 ⟨[2, 2], [[1, 2, 3], [4, 5, 6], [7, 8, 9], [10, 11, 12]]⟩
    ⟨[3, 2, 2], [1, 2, 3, 4, 5, 6, 7, 8, 9, 10, 11, 12]⟩ :=
  C111_layout 3 [2, 2] _ (by decide) (by decide)

/-- **C111**: a raster of scalars represents only one raster of pixels: the layout is that of the dedicated structure, and no
other. -/
theorem C111_layout_unique (n : Nat) (s : Position) (hs : NonNeg s) (pixels : List (List α))
    (hl : (pixels.length : Int) = pixelCount s) (scalars : Raster α) (h : AlongFirst n ⟨s, pixels⟩ scalars) :
    scalars = ⟨(n : Int) :: s, pixels.flatten⟩ := by
  obtain ⟨h1, h2, h3⟩ := h
  obtain ⟨shape, data⟩ := scalars
  obtain rfl : shape = (n : Int) :: s := h1
  have hget : ∀ k (hk : k < pixels.length), pixels[k].length = n ∧
      ∀ c (hc : c < pixels[k].length), data[n * k + c]? = some pixels[k][c] := by
    intro k hk
    have hk' : (k : Int) < pixelCount s := by rw [← hl]; exact_mod_cast hk
    obtain ⟨hp, hi⟩ := unravel_spec hs (by omega) hk'
    obtain ⟨x, hx, hxn, hxc⟩ := h3 _ hp
    have hx' : readAt pixels (index s (unravel s k)) = .ok x := hx
    rw [hi, readAt_nat, List.getElem?_eq_getElem hk] at hx'
    obtain rfl : pixels[k] = x := by injection hx'
    refine ⟨hxn, fun c hc => ?_⟩
    have := hxc c hc
    change readAt data (index ((n : Int) :: s) ((c : Int) :: unravel s k)) = _ at this
    rw [index_cons hp.length_eq, hi, show ((c : Int) + n * k) = ((n * k + c : Nat) : Int) by push_cast; ring,
      readAt_nat] at this
    cases hd : data[n * k + c]? with
    | none => rw [hd] at this; exact nomatch this
    | some y => rw [hd] at this; injection this with this; rw [this]
  have hn : ∀ x ∈ pixels, x.length = n := by
    intro x hx
    obtain ⟨k, hk, rfl⟩ := List.getElem_of_mem hx
    exact (hget k hk).1
  congr 1
  refine List.ext_getElem? fun j => ?_
  have h2' : data.length = n * pixels.length := h2
  by_cases hj : j < n * pixels.length
  · have hn0 : 0 < n := by
      rcases Nat.eq_zero_or_pos n with h | h
      · subst h; omega
      · exact h
    have hkl : j / n < pixels.length := Nat.div_lt_of_lt_mul hj
    have hc : j % n < n := Nat.mod_lt _ hn0
    rw [← Nat.div_add_mod j n, flatten_getElem hn hc, List.getElem?_eq_getElem hkl, Option.bind_some,
      (hget _ hkl).2 _ (by rw [(hget _ hkl).1]; exact hc)]
    exact (List.getElem?_eq_getElem _).symm
  · rw [List.getElem?_eq_none (by omega), List.getElem?_eq_none (by rw [flatten_length hn]; omega)]

/-- **C111**: filling by groups of components gives every pixel the same components. -/
theorem C111_fill (pixel data : List α) (m : Nat) (hp : 0 < pixel.length) (hd : data.length = pixel.length * m)
    (r : Res (Nat × List α)) :
    Fills pixel data r ↔ r = .ok (data.length, (List.replicate m pixel).flatten) := by
  have hrun : Fills pixel data (.ok (data.length, (List.replicate m pixel).flatten)) := by
    let S : Nat → Nat × List α := fun k =>
      (pixel.length * k, firstPixels (fun _ => pixel) k ++ data.drop (pixel.length * k))
    have h0 : S 0 = (0, data) := by simp [S, firstPixels]
    have hm : S m = (data.length, (List.replicate m pixel).flatten) := by
      simp [S, firstPixels, hd]
    unfold Fills
    rw [← h0, ← hm]
    refine While.seq S (Nat.zero_le m) (fun k _ hk => ⟨?_, ?_⟩) (.done ?_)
    · have := Nat.mul_lt_mul_of_pos_left hk hp
      change pixel.length * k ≠ data.length
      omega
    · change (do let data ← writePixel (firstPixels (fun _ => pixel) k ++ data.drop (pixel.length * k))
                  (pixel.length * k) pixel
                 return (pixel.length * k + pixel.length, data)) = _
      have := writePixel_first (g := fun _ => pixel) (n := pixel.length) (k := k) (out := data) (fun _ _ => rfl)
        (by rw [hd]; exact Nat.mul_le_mul_left _ hk)
      rw [this]
      rfl
    · change ¬ (pixel.length * m ≠ data.length)
      omega
  exact ⟨fun h => h.unique hrun, fun h => h ▸ hrun⟩

/-- Non-vacuity: two turquoise pixels. -/
example : Fills [64, 224, 208] [0, 0, 0, 0, 0, 0] (.ok (6, [64, 224, 208, 64, 224, 208])) :=
  (C111_fill [64, 224, 208] [0, 0, 0, 0, 0, 0] 2 (by decide) (by decide) _).2 rfl

/-- **C111**: the iterator jumps over the end when the number of values is not a multiple of the number of components: the
behaviour of the loop is undefined. -/
theorem C111_fill_undefined (pixel data : List α) (hp : 0 < pixel.length) (hd : ¬ pixel.length ∣ data.length)
    (r : Res (Nat × List α)) : Fills pixel data r ↔ r = .error .ub := by
  have hrun : Fills pixel data (.error .ub) := by
    let S : Nat → Nat × List α := fun k =>
      (pixel.length * k, firstPixels (fun _ => pixel) k ++ data.drop (pixel.length * k))
    have h0 : S 0 = (0, data) := by simp [S, firstPixels]
    have hne : ∀ k, pixel.length * k ≠ data.length := fun k h => hd ⟨k, h.symm⟩
    have hdm := Nat.div_add_mod data.length pixel.length
    have hlt := Nat.mod_lt data.length hp
    unfold Fills
    rw [← h0]
    refine While.seq S (Nat.zero_le (data.length / pixel.length)) (fun k _ hk => ⟨hne k, ?_⟩)
      (.fail (hne _) ?_)
    · change (do let data ← writePixel (firstPixels (fun _ => pixel) k ++ data.drop (pixel.length * k))
                  (pixel.length * k) pixel
                 return (pixel.length * k + pixel.length, data)) = _
      have := writePixel_first (g := fun _ => pixel) (n := pixel.length) (k := k) (out := data) (fun _ _ => rfl)
        (by have := Nat.mul_le_mul_left pixel.length hk; rw [Nat.succ_eq_add_one] at this; omega)
      rw [this]
      rfl
    · generalize hq : data.length / pixel.length = q at *
      change (do let data ← writePixel (firstPixels (fun _ => pixel) q ++ data.drop (pixel.length * q))
                  (pixel.length * q) pixel
                 return (pixel.length * q + pixel.length, data)) = _
      rw [writePixel_ub hp (by
        rw [List.length_append, firstPixels_length (n := pixel.length) fun _ _ => rfl, List.length_drop]; omega)]
      rfl
  exact ⟨fun h => h.unique hrun, fun h => h ▸ hrun⟩

/-- Non-vacuity: three components do not fit in four values. -/
example : Fills [1, 2, 3] [0, 0, 0, 0] (.error .ub) :=
  (C111_fill_undefined [1, 2, 3] [0, 0, 0, 0] (by decide) (by decide) _).2 rfl

/-- Body of the conversion loop on pixel `k`. -/
theorem convertBody_ok {f : List α → List β} {n k : Nat} {input : List α} {out : List β} (hf : ∀ x, (f x).length = n)
    (hi : n * (k + 1) ≤ input.length) (ho : n * (k + 1) ≤ out.length) :
    convertBody f n input
      (n * k, n * k, firstPixels (fun i => f ((input.drop (n * i)).take n)) k ++ out.drop (n * k)) =
    .ok (n * (k + 1), n * (k + 1),
      firstPixels (fun i => f ((input.drop (n * i)).take n)) (k + 1) ++ out.drop (n * (k + 1))) := by
  have hm : n * (k + 1) = n * k + n := by ring
  unfold convertBody
  dsimp only
  rw [readPixel_ok (by omega)]
  change (do let out ← writePixel _ _ (f ((input.drop (n * k)).take n)); return (n * k + n, n * k + n, out)) = _
  have := writePixel_first (g := fun i => f ((input.drop (n * i)).take n)) (n := n) (k := k) (out := out)
    (fun _ _ => hf _) ho
  rw [this, hm]
  rfl

/-- The values of pixel `k`. -/
theorem flatten_take {n : Nat} : ∀ {pixels : List (List α)}, (∀ x ∈ pixels, x.length = n) → ∀ {k : Nat}
    (hk : k < pixels.length), (pixels.flatten.drop (n * k)).take n = pixels[k] := by
  intro pixels
  induction pixels with
  | nil => intro _ k hk; exact absurd hk (by simp)
  | cons x xs ih =>
    intro h k hk
    have hx : x.length = n := h x (by simp)
    cases k with
    | zero => simp [← hx]
    | succ k =>
      have hm : n * (k + 1) = x.length + n * k := by rw [hx]; ring
      rw [List.flatten_cons, hm, ← List.drop_drop, List.drop_left, ih (fun y hy => h y (by simp [hy]))
        (by simpa using hk)]
      simp

/-- **C111**: looping by steps of `n` components, over rasters with components along the first axis, applies the conversion to
every pixel: the result is the layout of what `generate()` computes with the dedicated structure (C27). -/
theorem C111_convert (f : List α → List β) (n : Nat) (h0 : 0 < n) (hf : ∀ x, (f x).length = n) (pixels : List (List α))
    (hn : ∀ x ∈ pixels, x.length = n) (out : List β) (ho : out.length = n * pixels.length)
    (r : Res (Nat × Nat × List β)) :
    Converts f n pixels.flatten out r ↔ r = .ok (out.length, out.length, (pixels.map f).flatten) := by
  have hl := flatten_length hn
  have hrun : Converts f n pixels.flatten out (.ok (out.length, out.length, (pixels.map f).flatten)) := by
    let S : Nat → Nat × Nat × List β := fun k =>
      (n * k, n * k, firstPixels (fun i => f ((pixels.flatten.drop (n * i)).take n)) k ++ out.drop (n * k))
    have hz : S 0 = (0, 0, out) := by simp [S, firstPixels]
    have hm : S pixels.length = (out.length, out.length, (pixels.map f).flatten) := by
      have : (List.range pixels.length).map (fun i => f ((pixels.flatten.drop (n * i)).take n)) = pixels.map f := by
        refine List.ext_getElem (by simp) fun i hi hi' => ?_
        rw [List.getElem_map, List.getElem_map, List.getElem_range, flatten_take hn (by simpa using hi')]
      simp only [S, firstPixels, this, ← ho, List.drop_length, List.append_nil]
    unfold Converts
    rw [← hz, ← hm]
    refine While.seq S (Nat.zero_le _) (fun k _ hk => ⟨?_, ?_⟩) (.done ?_)
    · have := Nat.mul_lt_mul_of_pos_left hk h0
      change n * k ≠ pixels.flatten.length
      omega
    · have := Nat.mul_le_mul_left n (show k + 1 ≤ pixels.length from hk)
      exact convertBody_ok hf (by omega) (by omega)
    · change ¬ (n * pixels.length ≠ pixels.flatten.length)
      omega
  exact ⟨fun h => h.unique hrun, fun h => h ▸ hrun⟩

/-- Non-vacuity: the components of two pixels are swapped. -/
example : Converts (fun x : List Nat => [x.getD 1 0, x.getD 0 0]) 2 [[1, 2], [3, 4]].flatten [0, 0, 0, 0]
    (.ok (4, 4, [2, 1, 4, 3])) :=
  (C111_convert _ 2 (by decide) (fun _ => rfl) _ (by decide) _ (by decide) _).2 rfl

/-- **C111**: position-wise, component `c` of the converted pixel at `p` is that of the conversion of the pixel at `p`. -/
theorem C111_convert_pixels (f : List α → List β) (n : Nat) (h0 : 0 < n) (hf : ∀ x, (f x).length = n) (s : Position)
    (pixels : List (List α)) (hl : (pixels.length : Int) = pixelCount s) (hn : ∀ x ∈ pixels, x.length = n)
    (out : List β) (ho : out.length = n * pixels.length) :
    ∃ i j data, Converts f n pixels.flatten out (.ok (i, j, data)) ∧
      AlongFirst n ⟨s, pixels.map f⟩ ⟨(n : Int) :: s, data⟩ :=
  ⟨_, _, _, (C111_convert f n h0 hf pixels hn out ho _).2 rfl,
    C111_layout n s (pixels.map f) (by simpa using hl) (by
      intro x hx
      obtain ⟨y, -, rfl⟩ := List.mem_map.1 hx
      exact hf y)⟩

/-- Non-vacuity: as above, as rasters of shapes (2, 1) and (2, 2, 1). -/
example : ∃ i j data, Converts (fun x : List Nat => [x.getD 1 0, x.getD 0 0]) 2 [1, 2, 3, 4] [0, 0, 0, 0]
    (.ok (i, j, data)) ∧ AlongFirst 2 ⟨[2, 1], [[2, 1], [4, 3]]⟩ ⟨[2, 2, 1], data⟩ :=
  C111_convert_pixels _ 2 (by decide) (fun _ => rfl) [2, 1] [[1, 2], [3, 4]] (by decide) (by decide) _ (by decide)

/-- **C111**: the behaviour is undefined when the number of values is not a multiple of the number of components, or when the
output is smaller than the input. -/
theorem C111_convert_undefined (f : List α → List β) (n : Nat) (h0 : 0 < n) (hf : ∀ x, (f x).length = n)
    (input : List α) (out : List β) (h : ¬ n ∣ input.length ∨ out.length < input.length)
    (r : Res (Nat × Nat × List β)) : Converts f n input out r ↔ r = .error .ub := by
  have hrun : Converts f n input out (.error .ub) := by
    let g : Nat → List β := fun i => f ((input.drop (n * i)).take n)
    let S : Nat → Nat × Nat × List β := fun k => (n * k, n * k, firstPixels g k ++ out.drop (n * k))
    have hz : S 0 = (0, 0, out) := by simp [S, firstPixels]
    -- The number of pixels which fit in both
    obtain ⟨q, hq⟩ : ∃ q, q = min input.length out.length / n := ⟨_, rfl⟩
    have hdm := Nat.div_add_mod (min input.length out.length) n
    have hlt := Nat.mod_lt (min input.length out.length) h0
    rw [← hq] at hdm
    have hm : n * (q + 1) = n * q + n := by ring
    have hne : n * q ≠ input.length := by
      intro he
      rcases h with h | h
      · exact h ⟨q, he.symm⟩
      · omega
    unfold Converts
    rw [← hz]
    refine While.seq S (Nat.zero_le q) (fun k _ hk => ?_) (.fail hne ?_)
    · have := Nat.mul_le_mul_left n (show k + 1 ≤ q from hk)
      have hk' : n * (k + 1) = n * k + n := by ring
      refine ⟨?_, convertBody_ok hf (by omega) (by omega)⟩
      change n * k ≠ input.length
      omega
    · change convertBody f n input (n * q, n * q, firstPixels g q ++ out.drop (n * q)) = _
      unfold convertBody
      dsimp only
      by_cases hi : n * q + n ≤ input.length
      · rw [readPixel_ok hi]
        change (do let out ← writePixel _ _ (f ((input.drop (n * q)).take n)); return (n * q + n, n * q + n, out)) = _
        rw [writePixel_ub (by rw [hf]; exact h0) (by
          rw [List.length_append, firstPixels_length (g := g) (n := n) fun _ _ => hf _, List.length_drop, hf]; omega)]
        rfl
      · rw [readPixel_ub h0 (by omega)]
        rfl
  exact ⟨fun h => h.unique hrun, fun h => h ▸ hrun⟩

/-- Non-vacuity: the output misses a pixel; three values are not pixels of two components. -/
example : Converts (fun x : List Nat => [x.getD 1 0, x.getD 0 0]) 2 [1, 2, 3, 4] [0, 0] (.error .ub) ∧
    Converts (fun x : List Nat => [x.getD 1 0, x.getD 0 0]) 2 [1, 2, 3] [0, 0, 0] (.error .ub) :=
  ⟨(C111_convert_undefined _ 2 (by decide) (fun _ => rfl) _ _ (Or.inr (by decide)) _).2 rfl,
    (C111_convert_undefined _ 2 (by decide) (fun _ => rfl) _ _ (Or.inl (by decide)) _).2 rfl⟩

/-- Body of the integration loop on pixel `k`. -/
theorem integrateBody_ok {add mul : α → α → α} {zero : α} {weights cube image : List α} {n k : Nat}
    (hc : n * k + weights.length ≤ cube.length) (hk : k < image.length) (g : Nat → α)
    (hg : g k = innerProduct add mul zero weights ((cube.drop (n * k)).take weights.length)) :
    integrateBody add mul zero weights n cube (k, n * k, (List.range k).map g ++ image.drop k) =
      .ok (k + 1, n * (k + 1), (List.range (k + 1)).map g ++ image.drop (k + 1)) := by
  unfold integrateBody
  dsimp only
  rw [readPixel_ok hc]
  change (do let image ← writeAt _ (k : Int) (innerProduct add mul zero weights ((cube.drop (n * k)).take weights.length))
             return (k + 1, n * k + n, image)) = _
  rw [writeAt_nat, if_pos (by simp; omega), ← hg, List.set_append_right _ _ (by simp),
    List.range_succ]
  simp [Nat.mul_succ]
  rw [List.drop_eq_getElem_cons hk]
  rfl

/-- **C111**: the integrated values are the weighted sums of the components, pixel by pixel, in the order of the components:
value `k` is that of the values of the cube from `n * k`. -/
theorem C111_integrate (add mul : α → α → α) (zero : α) (weights : List α) (n : Nat) (cube image : List α)
    (hc : image.length = 0 ∨ n * (image.length - 1) + weights.length ≤ cube.length) (r : Res (Nat × Nat × List α)) :
    Integrates add mul zero weights n cube image r ↔ r = .ok (image.length, n * image.length,
      (List.range image.length).map fun k => innerProduct add mul zero weights ((cube.drop (n * k)).take weights.length)) := by
  let g : Nat → α := fun k => innerProduct add mul zero weights ((cube.drop (n * k)).take weights.length)
  have hrun : Integrates add mul zero weights n cube image (.ok (image.length, n * image.length,
      (List.range image.length).map g)) := by
    let S : Nat → Nat × Nat × List α := fun k => (k, n * k, (List.range k).map g ++ image.drop k)
    have hz : S 0 = (0, 0, image) := by simp [S]
    have hm : S image.length = (image.length, n * image.length, (List.range image.length).map g) := by simp [S]
    unfold Integrates
    rw [← hz, ← hm]
    refine While.seq S (Nat.zero_le _) (fun k _ hk => ⟨by change k ≠ _; omega, ?_⟩) (.done (by simp [S]))
    have := Nat.mul_le_mul_left n (show k ≤ image.length - 1 by omega)
    exact integrateBody_ok (by omega) hk g rfl
  exact ⟨fun h => h.unique hrun, fun h => h ▸ hrun⟩

/-- Non-vacuity: two pixels of two components. -/
example : Integrates (· + ·) (· * ·) 0 [1, 10] 2 [1, 2, 3, 4] [0, 0] (.ok (2, 4, [21, 43])) :=
  (C111_integrate (· + ·) (· * ·) 0 [1, 10] 2 [1, 2, 3, 4] [0, 0] (Or.inr (by decide)) _).2 rfl

/-- **C111**: position-wise, the integrated value at `p` is the weighted sum of the values of the cube at `(c, p)`. -/
theorem C111_integrate_pixels (add mul : α → α → α) (zero : α) (weights : List α) (s : Position) (cube image : List α)
    (hi : (image.length : Int) = pixelCount s) (hc : cube.length = weights.length * image.length)
    (w : Nat → α) (hw : ∀ c < weights.length, weights[c]? = some (w c)) (v : Nat → Position → α)
    (hv : ∀ p, InShape s p → ∀ c < weights.length,
      Raster.get ⟨(weights.length : Int) :: s, cube⟩ ((c : Int) :: p) = .ok (v c p)) :
    ∃ i j data, Integrates add mul zero weights weights.length cube image (.ok (i, j, data)) ∧
      data.length = image.length ∧ ∀ p, InShape s p → Raster.get ⟨s, data⟩ p =
        .ok ((List.range weights.length).foldl (fun sum c => add sum (mul (w c) (v c p))) zero) := by
  refine ⟨_, _, _, (C111_integrate add mul zero weights weights.length cube image ?_ _).2 rfl, by simp, ?_⟩
  · by_cases h : image.length = 0
    · exact Or.inl h
    · refine Or.inr ?_
      obtain ⟨m, hm⟩ := Nat.exists_eq_succ_of_ne_zero h
      rw [hc, hm]
      simp [Nat.mul_succ]
  · intro p hp
    obtain ⟨h0, h1⟩ := index_bounds hp
    obtain ⟨k, hk⟩ := Int.eq_ofNat_of_zero_le h0
    have hkl : k < image.length := by
      have : (k : Int) < image.length := by rw [hi, ← hk]; exact h1
      exact_mod_cast this
    change readAt _ (index s p) = _
    rw [hk, readAt_nat, List.getElem?_map, List.getElem?_range hkl]
    change Except.ok _ = _
    congr 1
    have hz : weights.zip ((cube.drop (weights.length * k)).take weights.length) =
        (List.range weights.length).map fun c => (w c, v c p) := by
      refine List.ext_getElem? fun c => ?_
      by_cases hcl : c < weights.length
      · have hvc := hv p hp c hcl
        change readAt cube (index ((weights.length : Int) :: s) ((c : Int) :: p)) = _ at hvc
        rw [index_cons hp.length_eq, hk,
          show ((c : Int) + weights.length * k) = ((weights.length * k + c : Nat) : Int) by push_cast; ring,
          readAt_nat] at hvc
        rw [List.getElem?_zip_eq_some (z := (w c, v c p)) |>.2 ⟨hw c hcl, ?_⟩, List.getElem?_map, List.getElem?_range hcl, Option.map_some]
        rw [List.getElem?_take_of_lt hcl, List.getElem?_drop]
        cases hd : cube[weights.length * k + c]? with
        | none => rw [hd] at hvc; exact nomatch hvc
        | some y => rw [hd] at hvc; injection hvc with hvc; rw [hvc]
      · rw [List.getElem?_eq_none (by simp; omega), List.getElem?_eq_none (by simp; omega)]
    change innerProduct add mul zero weights ((cube.drop (weights.length * k)).take weights.length) = _
    unfold innerProduct
    rw [hz, List.foldl_map]

/-- Non-vacuity: as above, as rasters of shapes (2, 2, 1) and (2, 1). -/
example : ∃ i j data, Integrates (· + ·) (· * ·) 0 [1, 10] 2 [1, 2, 3, 4] [0, 0] (.ok (i, j, data)) ∧ data.length = 2 ∧
    ∀ p, InShape [2, 1] p → Raster.get ⟨[2, 1], data⟩ p =
      .ok ((List.range 2).foldl (fun sum c => sum + [1, 10].getD c 0 * [1, 2, 3, 4].getD (2 * (p.getD 0 0).toNat + c) 0) 0) :=
  C111_integrate_pixels (· + ·) (· * ·) 0 [1, 10] [2, 1] [1, 2, 3, 4] [0, 0] (by decide) (by decide)
    (fun c => [1, 10].getD c 0) (by decide) (fun c p => [1, 2, 3, 4].getD (2 * (p.getD 0 0).toNat + c) 0) (by
      intro p hp c hc
      match p, hp with
      | [x, y], .cons hx (.cons hy .nil) =>
        obtain rfl : y = 0 := by omega
        have hx' : x = 0 ∨ x = 1 := by omega
        have hc' : c = 0 ∨ c = 1 := by simp at hc; omega
        rcases hx' with rfl | rfl <;> rcases hc' with rfl | rfl <;> rfl)

/-- **C111**: the behaviour is undefined when the values of the last pixel are not all in the cube, e.g. with more weights than
components. -/
theorem C111_integrate_undefined (add mul : α → α → α) (zero : α) (weights : List α) (n : Nat) (cube image : List α)
    (hi : 0 < image.length) (hw : 0 < weights.length) (hc : cube.length < n * (image.length - 1) + weights.length)
    (r : Res (Nat × Nat × List α)) : Integrates add mul zero weights n cube image r ↔ r = .error .ub := by
  let g : Nat → α := fun k => innerProduct add mul zero weights ((cube.drop (n * k)).take weights.length)
  have hrun : Integrates add mul zero weights n cube image (.error .ub) := by
    let S : Nat → Nat × Nat × List α := fun k => (k, n * k, (List.range k).map g ++ image.drop k)
    have hz : S 0 = (0, 0, image) := by simp [S]
    -- The first pixel which is not in the cube
    have hex : ∃ k, cube.length < n * k + weights.length := ⟨_, hc⟩
    classical
    obtain ⟨q, hq⟩ : ∃ q, q = Nat.find hex := ⟨_, rfl⟩
    have h1 : cube.length < n * q + weights.length := hq ▸ Nat.find_spec hex
    have h2 : ∀ k < q, n * k + weights.length ≤ cube.length := fun k hk => by
      have := Nat.find_min hex (hq ▸ hk)
      omega
    have h3 : q ≤ image.length - 1 := hq ▸ Nat.find_min' hex hc
    unfold Integrates
    rw [← hz]
    refine While.seq S (Nat.zero_le q) (fun k _ hk => ⟨by change k ≠ _; omega, ?_⟩)
      (.fail (by change q ≠ _; omega) ?_)
    · exact integrateBody_ok (h2 k hk) (by omega) g rfl
    · change integrateBody add mul zero weights n cube (q, n * q, (List.range q).map g ++ image.drop q) = _
      unfold integrateBody
      dsimp only
      rw [readPixel_ub hw h1]
      rfl
  exact ⟨fun h => h.unique hrun, fun h => h ▸ hrun⟩

/-- Non-vacuity: three weights for two components. -/
example : Integrates (· + ·) (· * ·) 0 [1, 10, 100] 2 [1, 2, 3, 4] [0, 0] (.error .ub) :=
  (C111_integrate_undefined (· + ·) (· * ·) 0 [1, 10, 100] 2 [1, 2, 3, 4] [0, 0] (by decide) (by decide) (by decide) _).2 rfl

theorem res_ok_bind {σ τ : Type _} (a : σ) (f : σ → Res τ) : ((Except.ok a : Res σ) >>= f) = f a := rfl

/-- The loop over a view changes exactly the values of the view. -/
theorem mapView_loop (g : α → α) (o : Nat) : ∀ (m : Nat) (data : List α), o + m ≤ data.length →
    ∃ data', (List.range m).foldlM (fun (data : List α) (i : Nat) => do
        let x ← readAt data ((o : Int) + (i : Int))
        writeAt data ((o : Int) + (i : Int)) (g x)) data = Except.ok (ε := Fail) data' ∧
      ∀ j, data'[j]? = if o ≤ j ∧ j < o + m then data[j]?.map g else data[j]? := by
  intro m
  induction m with
  | zero => intro data _; exact ⟨data, rfl, fun j => by rw [if_neg (by omega)]⟩
  | succ m ih =>
    intro data h
    obtain ⟨data', h1, h2⟩ := ih data (by omega)
    have hlt : o + m < data.length := by omega
    have hg : data'[o + m]? = some data[o + m] := by
      rw [h2, if_neg (by omega), List.getElem?_eq_getElem hlt]
    have hlt' : o + m < data'.length := (List.getElem?_eq_some_iff.1 hg).1
    refine ⟨data'.set (o + m) (g data[o + m]), ?_, fun j => ?_⟩
    · rw [List.range_succ, List.foldlM_append, h1]
      rw [res_ok_bind, List.foldlM_cons, show (o : Int) + (m : Int) = ((o + m : Nat) : Int) by push_cast; rfl, readAt_nat, hg]
      dsimp only
      rw [res_ok_bind, writeAt_nat, if_pos hlt']
      rfl
    · rw [List.getElem?_set]
      by_cases hj : o + m = j
      · subst hj
        rw [if_pos rfl, if_pos hlt', if_pos (by omega), List.getElem?_eq_getElem hlt, Option.map_some]
      · rw [if_neg hj, h2]
        by_cases hc : o ≤ j ∧ j < o + m
        · rw [if_pos hc, if_pos (by omega)]
        · rw [if_neg hc, if_neg (by omega)]

/-- The loop over a view which is not in the data. -/
theorem mapView_loop_ub (g : α → α) (o m : Nat) (data : List α) (h0 : 0 < m) (h : data.length < o + m) :
    (List.range m).foldlM (fun (data : List α) (i : Nat) => do
        let x ← readAt data ((o : Int) + (i : Int))
        writeAt data ((o : Int) + (i : Int)) (g x)) data = Except.error Fail.ub := by
  -- The iteration which fails
  obtain ⟨q, hq⟩ : ∃ q, q = data.length - o := ⟨_, rfl⟩
  have hfirst : ∃ data', (List.range q).foldlM (fun (data : List α) (i : Nat) => do
        let x ← readAt data ((o : Int) + (i : Int))
        writeAt data ((o : Int) + (i : Int)) (g x)) data = Except.ok (ε := Fail) data' ∧ data'[o + q]? = none := by
    by_cases ho : o ≤ data.length
    · obtain ⟨data', h1, h2⟩ := mapView_loop g o q data (by omega)
      exact ⟨data', h1, by rw [h2, if_neg (by omega), List.getElem?_eq_none (by omega)]⟩
    · obtain rfl : q = 0 := by omega
      exact ⟨data, rfl, List.getElem?_eq_none (by omega)⟩
  obtain ⟨data', h1, h2⟩ := hfirst
  have hs : List.range m = List.range q ++ q :: List.range' (q + 1) (m - q - 1) := by
    rw [List.range_eq_range', List.range_eq_range', show m = q + (1 + (m - q - 1)) by omega, ← List.range'_append]
    rw [show 1 + (m - q - 1) = (m - q - 1) + 1 by omega, List.range'_succ]
    simp
  rw [hs, List.foldlM_append, h1]
  rw [res_ok_bind, List.foldlM_cons, show (o : Int) + (q : Int) = ((o + q : Nat) : Int) by push_cast; rfl, readAt_nat, h2]
  rfl

/-- Index along the last axis. -/
theorem index_append_singleton {n c : Int} : ∀ {t q : Position}, q.length = t.length →
    index (t ++ [n]) (q ++ [c]) = index t q + t.prod * c
  | [], [], _ => by simp [index]
  | s :: ss, p :: ps, h => by
    have h' : ps.length = ss.length := by simpa using h
    rw [List.cons_append, List.cons_append, index_cons (by simp [h']), index_cons h', index_append_singleton h',
      List.prod_cons]
    ring
  | [], _ :: _, h => by simp at h
  | _ :: _, [], h => by simp at h

theorem index_origin : ∀ t : Position, index t (List.replicate t.length 0) = 0
  | [] => by simp [index]
  | s :: ss => by
    rw [List.length_cons, List.replicate_succ, index_cons (by simp), index_origin ss]
    simp

theorem prod_nonneg_of_nonNeg {t : List Int} (h : NonNeg t) : 0 ≤ t.prod := by
  induction t with
  | nil => simp
  | cons s ss ih =>
    rw [List.prod_cons]
    exact mul_nonneg (h s (by simp)) (ih fun x hx => h x (by simp [hx]))

theorem prod_pos_of_pos {t : List Int} (h : Pos t) : 0 < t.prod := by
  induction t with
  | nil => simp
  | cons s ss ih =>
    rw [List.prod_cons]
    exact mul_pos (h s (by simp)) (ih fun x hx => h x (by simp [hx]))

/-- Section `c` starts after the previous sections. -/
theorem section_offset (r : Raster α) (t : Position) (n : Int) (hs : r.shape = t ++ [n]) (ht : t ≠ []) (c : Nat) :
    (View.ofRaster r).section1 c = .ok ⟨t, t.prod * c⟩ := by
  obtain ⟨w, h1, h2, h3⟩ := C15_section1 (View.ofRaster r) t n c hs ht
  have := h3 (List.replicate t.length 0) (by simp)
  unfold View.ptr at this
  rw [h2, index_origin, show (View.ofRaster r).shape = t ++ [n] from hs, index_append_singleton (by simp),
    index_origin] at this
  have ho : w.offset = t.prod * c := by
    have h0 : (View.ofRaster r).offset = 0 := rfl
    rw [h0] at this
    linarith
  rw [h1, ← ho, ← h2]

/-- **C111**: with components along the last axis, modifying some sections (each of them at most once, in any order) changes
their pixels, each by the function of its section, and no other: the channels are independent. -/
theorem C111_sections (g : Nat → α → α) (t : Position) (ht : t ≠ []) (hp : NonNeg t) (n : Nat) (r : Raster α)
    (hs : r.shape = t ++ [(n : Int)]) (hd : (r.data.length : Int) = pixelCount (t ++ [(n : Int)])) (channels : List Nat)
    (hnd : channels.Nodup) (hc : ∀ c ∈ channels, c < n) :
    ∃ r', mapSections g r channels = .ok r' ∧ r'.shape = r.shape ∧ r'.data.length = r.data.length ∧
      ∀ q, InShape t q → ∀ c < n, ∃ x, r.get (q ++ [(c : Int)]) = .ok x ∧
        r'.get (q ++ [(c : Int)]) = .ok (if c ∈ channels then g c x else x) := by
  have hpos : 0 ≤ t.prod := prod_nonneg_of_nonNeg hp
  obtain ⟨m, hm⟩ := Int.eq_ofNat_of_zero_le hpos
  have hlen : r.data.length = m * n := by
    have : (r.data.length : Int) = (m : Int) * n := by rw [hd, pixelCount, List.prod_append, hm]; simp
    exact_mod_cast this
  -- Value by value
  have key : ∀ (channels : List Nat), channels.Nodup → (∀ c ∈ channels, c < n) → ∀ r : Raster α,
      r.shape = t ++ [(n : Int)] → r.data.length = m * n →
      ∃ r', mapSections g r channels = .ok r' ∧ r'.shape = r.shape ∧ r'.data.length = r.data.length ∧
        ∀ c i, i < m → r'.data[m * c + i]? = if c ∈ channels then r.data[m * c + i]?.map (g c) else r.data[m * c + i]? := by
    intro channels
    induction channels with
    | nil => intro _ _ r _ _; exact ⟨r, rfl, rfl, rfl, fun c i _ => by simp⟩
    | cons d ds ih =>
      intro hnd hc r hs hlen
      have hdn : d < n := hc d (by simp)
      have hle := Nat.mul_le_mul_left m (show d + 1 ≤ n from hdn)
      have hsucc : m * (d + 1) = m * d + m := by ring
      obtain ⟨data', h1, h2⟩ := mapView_loop (g d) (m * d) m r.data (by omega)
      have hl' : data'.length = r.data.length := by
        refine Nat.le_antisymm (Nat.le_of_not_lt fun h => ?_) (Nat.le_of_not_lt fun h => ?_)
        · have := h2 r.data.length
          rw [if_neg (by omega), List.getElem?_eq_none le_rfl, List.getElem?_eq_getElem h] at this
          exact nomatch this
        · have := h2 data'.length
          rw [List.getElem?_eq_none le_rfl, List.getElem?_eq_getElem h] at this
          split at this <;> exact nomatch this
      obtain ⟨r', h3, h4, h5, h6⟩ := ih (List.nodup_cons.1 hnd).2 (fun c h => hc c (by simp [h])) ⟨r.shape, data'⟩ hs
        (hl'.trans hlen)
      refine ⟨r', ?_, h4, h5.trans hl', fun c i hi => ?_⟩
      · have hstep : mapView (g d) ⟨t, t.prod * d⟩ r.data = .ok data' := by
          unfold mapView
          dsimp only
          rw [shapeSize_eq ht, hm, Int.toNat_natCast, show (m : Int) * d = ((m * d : Nat) : Int) by push_cast; rfl]
          exact h1
        unfold mapSections at h3 ⊢
        rw [List.foldlM_cons, section_offset r t n hs ht d]
        rw [res_ok_bind, hstep, res_ok_bind]
        exact h3
      · rw [h6 c i hi]
        dsimp only
        have hnot := (List.nodup_cons.1 hnd).1
        rcases Nat.lt_trichotomy c d with h | h | h
        · have := Nat.mul_le_mul_left m (show c + 1 ≤ d from h)
          have hcs : m * (c + 1) = m * c + m := by ring
          have h2' := h2 (m * c + i)
          rw [if_neg (by omega)] at h2'
          rw [h2']
          simp [show c ≠ d by omega]
        · subst h
          rw [if_neg hnot, if_pos (by simp), h2, if_pos (by omega)]
        · have := Nat.mul_le_mul_left m (show d + 1 ≤ c from h)
          have h2' := h2 (m * c + i)
          rw [if_neg (by omega)] at h2'
          rw [h2']
          simp [show c ≠ d by omega]
  obtain ⟨r', h1, h2, h3, h4⟩ := key channels hnd hc r hs hlen
  refine ⟨r', h1, h2, h3, fun q hq c hcn => ?_⟩
  obtain ⟨h0, hlt⟩ := index_bounds hq
  obtain ⟨k, hk⟩ := Int.eq_ofNat_of_zero_le h0
  have hkm : k < m := by rw [hk, hm] at hlt; exact_mod_cast hlt
  have hle := Nat.mul_le_mul_left m (show c + 1 ≤ n from hcn)
  have hsucc : m * (c + 1) = m * c + m := by ring
  have hin : m * c + k < r.data.length := by omega
  have hidx : index (t ++ [(n : Int)]) (q ++ [(c : Int)]) = ((m * c + k : Nat) : Int) := by
    rw [index_append_singleton hq.length_eq, hk, hm]; push_cast; ring
  refine ⟨r.data[m * c + k], ?_, ?_⟩
  · unfold Raster.get
    rw [hs, hidx, readAt_nat, List.getElem?_eq_getElem hin]
  · unfold Raster.get
    rw [h2, hs, hidx, readAt_nat, h4 c k hkm, List.getElem?_eq_getElem hin]
    by_cases h : c ∈ channels
    · rw [if_pos h, if_pos h]; rfl
    · rw [if_neg h, if_neg h]

/-- Non-vacuity: channels 2 then 0 of a raster of shape (2, 1, 3). -/
example : mapSections (fun (c x : Nat) => x * (c + 2)) ⟨[2, 1, 3], [1, 2, 3, 4, 5, 6]⟩ [2, 0] =
      .ok ⟨[2, 1, 3], [2, 4, 3, 4, 20, 24]⟩ ∧
    ∃ r', mapSections (fun (c x : Nat) => x * (c + 2)) ⟨[2, 1, 3], [1, 2, 3, 4, 5, 6]⟩ [2, 0] = .ok r' ∧ r'.shape = [2, 1, 3] ∧
      r'.data.length = 6 ∧ ∀ q, InShape [2, 1] q → ∀ c : Nat, c < 3 → ∃ x : Nat,
        Raster.get ⟨[2, 1, 3], [1, 2, 3, 4, 5, 6]⟩ (q ++ [(c : Int)]) = .ok x ∧
          r'.get (q ++ [(c : Int)]) = .ok (if c ∈ [2, 0] then x * (c + 2) else x) :=
  ⟨rfl, C111_sections (fun (c x : Nat) => x * (c + 2)) [2, 1] (by decide) (by unfold NonNeg; decide) 3
    ⟨[2, 1, 3], [1, 2, 3, 4, 5, 6]⟩ rfl (by decide) [2, 0] (by decide) (by decide)⟩

/-- **C111**: the index of a section is not checked: modifying a section after the last one is undefined. -/
theorem C111_sections_undefined (g : Nat → α → α) (t : Position) (ht : t ≠ []) (hp : Pos t) (n c : Nat) (r : Raster α)
    (hs : r.shape = t ++ [(n : Int)]) (hd : (r.data.length : Int) = pixelCount (t ++ [(n : Int)])) (hc : n ≤ c) :
    mapSections g r [c] = .error .ub := by
  have hpos : 0 < t.prod := prod_pos_of_pos hp
  obtain ⟨m, hm⟩ := Int.eq_ofNat_of_zero_le hpos.le
  have hm0 : 0 < m := by rw [hm] at hpos; exact_mod_cast hpos
  have hlen : r.data.length = m * n := by
    have : (r.data.length : Int) = (m : Int) * n := by rw [hd, pixelCount, List.prod_append, hm]; simp
    exact_mod_cast this
  have hstep : mapView (g c) ⟨t, t.prod * c⟩ r.data = .error .ub := by
    unfold mapView
    dsimp only
    rw [shapeSize_eq ht, hm, Int.toNat_natCast, show (m : Int) * c = ((m * c : Nat) : Int) by push_cast; rfl]
    have := Nat.mul_le_mul_left m hc
    exact mapView_loop_ub (g c) (m * c) m r.data hm0 (by omega)
  unfold mapSections
  rw [List.foldlM_cons, section_offset r t n hs ht c]
  rw [res_ok_bind, hstep]
  rfl

/-- Non-vacuity: channel 3 of 3. -/
example : mapSections (fun _ x => x + 1) ⟨[2, 1, 3], [1, 2, 3, 4, 5, 6]⟩ [3] = .error .ub :=
  C111_sections_undefined (fun _ x => x + 1) [2, 1] (by decide) (by unfold Pos; decide) 3 3 _ rfl (by decide) (by decide)

end Litl
