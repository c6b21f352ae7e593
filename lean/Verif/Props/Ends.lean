import Verif.Model.Ends
import Verif.Props.Access
import Verif.Props.BoxIter
import Verif.Props.Section

/-!
# First and last elements, and iterators over values (C126)
-/

namespace Litl

open Spec BoxIterator

variable {α : Type _}

theorem ends_prod_nonneg : ∀ {s : Position}, NonNeg s → 0 ≤ s.prod
  | [], _ => by simp
  | n :: s, h => by
    rw [List.prod_cons]
    exact mul_nonneg (h n (by simp)) (ends_prod_nonneg fun m hm => h m (by simp [hm]))

theorem ends_prod_pos : ∀ {s : Position}, Pos s → 0 < s.prod
  | [], _ => by simp
  | n :: s, h => by
    rw [List.prod_cons]
    exact mul_pos (h n (by simp)) (ends_prod_pos fun m hm => h m (by simp [hm]))

/-- The index of the last position. -/
theorem index_domain_back : ∀ s : Position, index s (s.map (· - 1)) = s.prod - 1
  | [] => by simp [index]
  | n :: s => by
    rw [List.map_cons, index_cons (by simp), index_domain_back s, List.prod_cons]
    ring

theorem view_size {v : View} (h : v.shape ≠ []) (hs : NonNeg v.shape) (hc : pixelCount v.shape < 2 ^ 64) :
    v.size = pixelCount v.shape := by
  unfold View.size u64
  rw [shapeSize_eq h]
  exact Int.emod_eq_of_lt (ends_prod_nonneg hs) hc

/-- **C126**: the first and last elements of a raster or view are the pixels at the first and last positions of its domain. -/
theorem C126_ends (v : View) (data : List α) (h : v.shape ≠ []) (hs : Pos v.shape) (hc : pixelCount v.shape < 2 ^ 64) :
    v.front data = v.get data (Raster.domainOf v.shape.length v.shape).front ∧
      v.back data = v.get data (Raster.domainOf v.shape.length v.shape).back := by
  have hp : 0 < v.shape.prod := ends_prod_pos hs
  have hc' : v.shape.prod < 2 ^ 64 := hc
  rw [domainOf_fixed]
  constructor
  · unfold View.front View.get View.ptr
    rw [index_zeros _ _ rfl, add_zero]
  · unfold View.back View.get View.ptr
    rw [index_domain_back, view_size h (fun n hn => (hs n hn).le) hc]
    unfold u64 pixelCount
    rw [Int.emod_eq_of_lt (by omega) (by omega)]

theorem loopTrace_range (a : Int) : ∀ n : Nat, LoopTrace (· + 1) (a + n) a ((List.range n).map fun k : Nat => a + (k : Int))
  | 0 => by simpa using LoopTrace.done
  | n + 1 => by
    rw [List.range_succ_eq_map, List.map_cons, List.map_map]
    have ih := loopTrace_range (a + 1) n
    have e : a + 1 + (n : Int) = a + ((n + 1 : Nat) : Int) := by push_cast; ring
    rw [e] at ih
    have e2 : ((fun k : Nat => a + (k : Int)) ∘ Nat.succ) = fun k : Nat => a + 1 + (k : Int) := by
      funext k; simp only [Function.comp]; push_cast; ring
    rw [e2]
    have e3 : a + ((0 : Nat) : Int) = a := by simp
    rw [e3]
    exact .next (by push_cast; omega) ih

/-- The loop over the values is that over as many pointers as there are pixels. -/
theorem traverses_iff {v : View} (h : v.shape ≠ []) (hs : NonNeg v.shape) (hc : pixelCount v.shape < 2 ^ 64) (l : List Int) :
    v.Traverses l ↔ l = (List.range (pixelCount v.shape).toNat).map fun k : Nat => v.offset + (k : Int) := by
  have h0 : 0 ≤ pixelCount v.shape := ends_prod_nonneg hs
  have key := loopTrace_range v.offset (pixelCount v.shape).toNat
  rw [Int.toNat_of_nonneg h0] at key
  have e : v.end = v.offset + pixelCount v.shape := by
    unfold View.end View.begin
    rw [view_size h hs hc]
  unfold View.Traverses
  rw [e]
  exact ⟨fun hl => hl.unique key, fun hl => hl ▸ key⟩

/-- **C126**: the loops over the values and over the positions of a raster or view end and visit the same pixels in the same
order. -/
theorem C126_traversal (v : View) (h : v.shape ≠ []) (hs : Pos v.shape) (hc : pixelCount v.shape < 2 ^ 64) :
    ∃ ps, Visits (Raster.domainOf v.shape.length v.shape) ps ∧ ∀ l, v.Traverses l ↔ l = ps.map v.ptr := by
  obtain ⟨ps, h1, h2, h3⟩ := C03_domain_storage_order v.shape h hs
  refine ⟨ps, h1, fun l => ?_⟩
  rw [traverses_iff h (fun n hn => (hs n hn).le) hc]
  have e : ((List.range (pixelCount v.shape).toNat).map fun k : Nat => v.offset + (k : Int)) = ps.map v.ptr := by
    rw [shapeSize_eq h] at h2
    have hl : (pixelCount v.shape).toNat = ps.length := by unfold pixelCount; omega
    rw [hl]
    refine List.ext_getElem (by simp) fun k h4 h5 => ?_
    simp only [List.length_map] at h5
    simp only [List.getElem_map, List.getElem_range]
    unfold View.ptr
    rw [(h3 k h5).2]
  rw [e]

/-- **C126**: the loop over the values of a raster visits the values of its holder, and of all of the pixels, even if there are
none. -/
theorem C126_values (r : Raster α) (h : r.shape ≠ []) (hs : NonNeg r.shape) (hr : (r.data.length : Int) = pixelCount r.shape)
    (hc : pixelCount r.shape < 2 ^ 64) :
    ∃ l, (View.ofRaster r).Traverses l ∧ l.map (readAt r.data) = r.data.map .ok := by
  refine ⟨_, (traverses_iff (v := View.ofRaster r) h hs hc _).2 rfl, ?_⟩
  have e : (pixelCount (View.ofRaster r).shape).toNat = r.data.length := by
    show (pixelCount r.shape).toNat = _
    omega
  rw [e, List.map_map]
  refine List.ext_getElem (by simp) fun k h1 h2 => ?_
  simp only [List.length_map] at h2
  simp [View.ofRaster, readAt, h2]

/-- **C126**: `emtpy()` is true if and only if there is no pixel, and then the loop over the values visits nothing. -/
theorem C126_empty (v : View) (h : v.shape ≠ []) (hs : NonNeg v.shape) (hc : pixelCount v.shape < 2 ^ 64) :
    (v.empty = true ↔ ¬ ∃ p, InShape v.shape p) ∧ (v.empty = true ↔ v.Traverses []) := by
  have h0 : 0 ≤ pixelCount v.shape := ends_prod_nonneg hs
  have e : v.empty = true ↔ pixelCount v.shape = 0 := by
    unfold View.empty View.end
    rw [view_size h hs hc, beq_iff_eq]
    omega
  refine ⟨?_, ?_⟩
  · rw [e]
    constructor
    · rintro hz ⟨p, hp⟩
      have := index_bounds hp
      unfold pixelCount at hz
      omega
    · intro hn
      by_contra hz
      exact hn ⟨_, (unravel_spec hs le_rfl (by unfold pixelCount at h0 hz; omega)).1⟩
  · rw [e, traverses_iff h hs hc]
    constructor
    · intro hz; rw [hz]; rfl
    · intro hz
      have := congrArg List.length hz
      simp at this
      omega

/-- **C126**: without pixels, the last element is read out of any buffer, and the first one is whichever element of the buffer
the view points to, if any: nothing is checked. -/
theorem C126_empty_view (v : View) (data : List α) (h : v.shape ≠ []) (hz : pixelCount v.shape = 0) (ho : 0 ≤ v.offset)
    (hd : data.length < 2 ^ 64) :
    v.back data = .error .ub ∧ (∀ x, v.front data = .ok x ↔ data[v.offset.toNat]? = some x) ∧
      (v.front data = .error .ub ↔ (data.length : Int) ≤ v.offset) := by
  have hb : u64 (v.size - 1) = 2 ^ 64 - 1 := by
    unfold View.size
    rw [shapeSize_eq h, show v.shape.prod = 0 from hz]
    rfl
  refine ⟨?_, fun x => ?_, ?_⟩
  · unfold View.back
    rw [hb]
    exact readAt_ub (by omega)
  · unfold View.front readAt
    rw [if_neg (by omega)]
    cases data[v.offset.toNat]? <;> simp
  · unfold View.front readAt
    rw [if_neg (by omega)]
    constructor
    · intro he
      by_contra hlt
      rw [List.getElem?_eq_getElem (by omega)] at he
      cases he
    · intro hlt
      rw [List.getElem?_eq_none (by omega)]

/-- **C126**: `front()` and `back()` of an owning container are `at(0)` and `at(-1)`; if there is no element, the latter throw,
whereas the behaviour of the former is undefined. -/
theorem C126_at (data : List α) (hn : (data.length : Int) < 2 ^ 63) :
    (data ≠ [] → Container.front data = Container.at data 0 ∧ Container.back data = Container.at data (-1) ∧
      Container.front data = (data.head?.elim (.error .ub) .ok) ∧ Container.back data = (data.getLast?.elim (.error .ub) .ok)) ∧
    (data = [] → Container.front data = .error .ub ∧ Container.back data = .error .ub ∧
      ∀ i, Container.at data i = .error .outOfBounds) := by
  constructor
  · intro hne
    have hl : 0 < data.length := List.length_pos_iff.2 hne
    have hu : u64 (u64 data.length - 1) = data.length - 1 := by
      unfold u64
      omega
    have hf : Container.front data = .ok data[0] := by simp [Container.front, readAt, hl]
    have hb : Container.back data = .ok (data[data.length - 1]'(by omega)) := by
      unfold Container.back Container.get readAt
      rw [hu, if_neg (by omega)]
      have : ((data.length : Int) - 1).toNat = data.length - 1 := by omega
      rw [this, List.getElem?_eq_getElem (by omega)]
    have h1 := fun i => C07_at_value data i hn
    refine ⟨?_, ?_, ?_, ?_⟩
    · rw [hf, (h1 0).1 ⟨le_rfl, by omega⟩]
      rfl
    · rw [hb, (h1 (-1)).2 ⟨by omega, by omega⟩]
      congr 2
      omega
    · rw [hf, List.head?_eq_getElem?, List.getElem?_eq_getElem hl]
      rfl
    · rw [hb, List.getLast?_eq_getElem?, List.getElem?_eq_getElem (by omega)]
      rfl
  · rintro rfl
    refine ⟨rfl, ?_, fun i => ?_⟩
    · unfold Container.back Container.get
      exact readAt_ub (by unfold u64; simp)
    · rw [C07_at_throws_iff _ _ hn]
      simp
      omega

/-- **C126**: the sections of a raster or view are one after the other in memory: the first one begins where it begins, each
one ends where the next one begins, and the last one ends where it ends. -/
theorem C126_sections (v : View) (t : Position) (n : Int) (hs : v.shape = t ++ [n]) (ht : t ≠ []) (hp : NonNeg v.shape)
    (hn : 0 < n) (hc : pixelCount v.shape < 2 ^ 64) :
    ∃ w : Int → View, (∀ i, v.section1 i = .ok (w i)) ∧ (w 0).begin = v.begin ∧ (∀ i, (w i).end = (w (i + 1)).begin) ∧
      (w (n - 1)).end = v.end := by
  choose w h1 h2 h3 using fun i => C15_section1 v t n i hs ht
  have htn : NonNeg t := fun m hm => hp m (by rw [hs]; simp [hm])
  have hv : pixelCount v.shape = pixelCount t * n := by rw [hs]; simp [pixelCount]
  have h0 : 0 ≤ pixelCount t := ends_prod_nonneg htn
  have hct : pixelCount t < 2 ^ 64 := by nlinarith
  have ho : ∀ i, (w i).offset = v.offset + pixelCount t * i := by
    intro i
    have e := h3 i (List.replicate t.length 0) (by simp)
    unfold View.ptr at e
    rw [h2 i, index_zeros _ _ rfl, hs] at e
    have e2 : index (t ++ [n]) (List.replicate t.length 0 ++ [i]) = pixelCount t * i := by
      have : ∀ u : Position, index (u ++ [n]) (List.replicate u.length 0 ++ [i]) = u.prod * i := by
        intro u
        induction u with
        | nil => simp [index]
        | cons m u ih =>
          simp only [List.cons_append, List.length_cons, List.replicate_succ]
          rw [index_cons (by simp), ih, List.prod_cons]
          ring
      exact this t
    rw [e2] at e
    omega
  have hsz : ∀ i, (w i).size = pixelCount t := fun i => by
    rw [view_size (by rw [h2]; exact ht) (by rw [h2]; exact htn) (by rw [h2]; exact hct), h2]
  have hvs : v.size = pixelCount t * n := by
    rw [view_size (by rw [hs]; simp) hp hc, hv]
  refine ⟨w, h1, ?_, fun i => ?_, ?_⟩
  · unfold View.begin
    rw [ho]
    ring
  · unfold View.end View.begin
    rw [hsz, ho, ho]
    ring
  · unfold View.end View.begin
    rw [hsz, ho, hvs]
    ring

/-- The hypotheses of the theorems: the pixels of a view of shape (3, 2) on elements 4 to 9 of a buffer. -/
example : View.front ⟨[3, 2], 4⟩ (List.range 12) = .ok 4 ∧ View.back ⟨[3, 2], 4⟩ (List.range 12) = .ok 9 ∧
    View.get ⟨[3, 2], 4⟩ (List.range 12) [2, 1] = .ok 9 ∧ View.Traverses ⟨[3, 2], 4⟩ [4, 5, 6, 7, 8, 9] := by
  refine ⟨rfl, rfl, rfl, ?_⟩
  refine (traverses_iff (v := ⟨[3, 2], 4⟩) (by simp) ?_ (by decide) _).2 (by decide)
  simp [NonNeg]

/-- A view without pixels in the same buffer: an element which is not its own is its first one. -/
example : View.empty ⟨[3, 0], 4⟩ = true ∧ View.front ⟨[3, 0], 4⟩ (List.range 12) = .ok 4 ∧
    View.back ⟨[3, 0], 4⟩ (List.range 12) = .error .ub :=
  ⟨rfl, rfl, (C126_empty_view ⟨[3, 0], 4⟩ (List.range 12) (by simp) rfl (by simp) (by simp)).1⟩

/-- The hypotheses of `C126_at`. -/
example : Container.back [1, 2, 3] = Container.at [1, 2, 3] (-1) := ((C126_at [1, 2, 3] (by simp)).1 (by simp)).2.1

/-- The hypotheses of `C126_sections`: the rows of an image. -/
example : ∃ w : Int → View, (∀ i, View.section1 ⟨[3, 2], 0⟩ i = .ok (w i)) ∧ (w 0).begin = 0 ∧
    (∀ i, (w i).end = (w (i + 1)).begin) ∧ (w 1).end = 6 :=
  C126_sections ⟨[3, 2], 0⟩ [3] 2 rfl (by simp) (by simp [NonNeg]) (by norm_num) (by decide)

end Litl
