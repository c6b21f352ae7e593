import Verif.Model.Fits
import Verif.Props.Holders

/-!
# C71: FITS files
-/

namespace Litl

open Container Holder Fits

namespace Spec

/-- A raster of which the values have `width` bytes. -/
def IsRaster (width : Nat) (r : RawRaster) : Prop :=
  r.shape ≠ [] ∧ (∀ l ∈ r.shape, 0 ≤ l) ∧ r.bytes.length = width * (shapeSize r.shape).toNat

/-- The dimensions of the rasters which have a given shape: that of the shape, or variable. -/
def HasDimension (N : Int) (shape : Position) : Prop := N = -1 ∨ N = shape.length

end Spec

open Spec

/-- Shapes are read as they are if the dimension is right. -/
theorem readShape_ok {N : Int} {s : Fits.State} (hN : HasDimension N (imgShape s)) (hl : (imgShape s).length < 2 ^ 63) :
    readShape N s = .ok (imgShape s) := by
  unfold readShape
  by_cases h : N = -1
  · rw [if_pos h, ofSize, allocate, if_neg (by omega)]
    simp
  · rw [if_neg h, C70_array_size, if_pos (by unfold HasDimension at hN; omega), ok_bind]
    have : (imgShape s).length = N.toNat := by unfold HasDimension at hN; omega
    simp [this]
    rfl

/-- What is in the file once a raster was written, provided that there was no file and no error. -/
theorem write_new (r : RawRaster) (w : Nat) (hr : IsRaster w r) (s : Fits.State) (h1 : s.failed = false)
    (h2 : s.file = none) :
    write r s = ⟨some ⟨r.shape, r.bytes.take (shapeSize r.shape).toNat⟩, false, false⟩ := by
  obtain ⟨file, opened, failed⟩ := s
  dsimp only at h1 h2
  subst h1 h2
  have : (r.shape.any (· < 0)) = false := by
    rw [List.any_eq_false]
    intro l hl
    have := hr.2.1 l hl
    simpa using this
  simp [write, createFile, createImg, this, writeImg, closeFile]

/-- **C71**, in full: what is written is what is read. -/
def C71_Statement : Prop :=
  ∀ (width : Nat) (N : Int) (r : RawRaster) (file : Option Fits.Image), 1 ≤ width → r.shape.length < 2 ^ 63 →
    IsRaster width r → HasDimension N r.shape → (Fits.read N width (write r (new file))).1 = .ok r

/-- **C71** is refuted: a raster of one 16-bit value 256, which is written as 0. -/
theorem C71_violated : ¬ C71_Statement := fun h => by
  have := h 2 1 ⟨[1], [0, 1]⟩ none (by omega) (by decide) ⟨by decide, by decide, by decide⟩ (Or.inr rfl)
  revert this
  decide

/-- **C71**, exact result for new files: all bytes but as many first ones as there are pixels are lost and read as 0. -/
theorem C71_exact (width : Nat) (N : Int) (r : RawRaster) (s : Fits.State) (hw : 1 ≤ width)
    (hl : r.shape.length < 2 ^ 63) (hr : IsRaster width r) (hN : HasDimension N r.shape) (h1 : s.failed = false)
    (h2 : s.file = none) :
    Fits.read N width (write r s) =
      (.ok ⟨r.shape, r.bytes.take (shapeSize r.shape).toNat ++
          List.replicate ((width - 1) * (shapeSize r.shape).toNat) 0⟩, write r s) := by
  rw [write_new r width hr s h1 h2]
  have hm : (shapeSize r.shape).toNat ≤ width * (shapeSize r.shape).toNat := Nat.le_mul_of_pos_left _ hw
  have e : imgShape (openFile ⟨some ⟨r.shape, r.bytes.take (shapeSize r.shape).toNat⟩, false, false⟩) = r.shape := rfl
  have hs := readShape_ok (N := N) (s := openFile ⟨some ⟨r.shape, r.bytes.take (shapeSize r.shape).toNat⟩, false, false⟩)
    (by rw [e]; exact hN) (by rw [e]; exact hl)
  rw [e] at hs
  unfold Fits.read
  dsimp only
  rw [hs]
  simp only [readImg, openFile, closeFile]
  simp [hr.2.2, hm, Nat.sub_mul]

/-- **C71**, partial: the values of rasters of 1-byte types are those which were written if the file did not exist.
Missing: other types (`C71_exact`, `C71_lossy`) and existing files (`C71_existing`). -/
theorem C71_bytes_partial (N : Int) (r : RawRaster) (s : Fits.State) (hl : r.shape.length < 2 ^ 63)
    (hr : IsRaster 1 r) (hN : HasDimension N r.shape) (h1 : s.failed = false) (h2 : s.file = none) :
    (Fits.read N 1 (write r s)).1 = .ok r := by
  rw [C71_exact 1 N r s le_rfl hl hr hN h1 h2]
  have := hr.2.2
  simp [List.take_of_length_le, this]

/-- **C71**: for any type, the values which are read are those which were written iff all bytes but as many first ones as
there are pixels were 0, e.g. for 16-bit values if the second half of the raster is 0. -/
theorem C71_lossy (width : Nat) (N : Int) (r : RawRaster) (s : Fits.State) (hw : 1 ≤ width)
    (hl : r.shape.length < 2 ^ 63) (hr : IsRaster width r) (hN : HasDimension N r.shape) (h1 : s.failed = false)
    (h2 : s.file = none) :
    (Fits.read N width (write r s)).1 = .ok r ↔ ∀ b ∈ r.bytes.drop (shapeSize r.shape).toNat, b = 0 := by
  rw [C71_exact width N r s hw hl hr hN h1 h2]
  obtain ⟨shape, bytes⟩ := r
  have hb := hr.2.2
  dsimp only at hb ⊢
  generalize (shapeSize shape).toNat = n at hb ⊢
  have hd : (bytes.drop n).length = (width - 1) * n := by rw [List.length_drop, hb, Nat.sub_mul, Nat.one_mul]
  rw [← hd]
  constructor
  · intro h
    have e : bytes.take n ++ List.replicate (bytes.drop n).length 0 = bytes := by
      simpa using h
    have e' : bytes.take n ++ List.replicate (bytes.drop n).length 0 = bytes.take n ++ bytes.drop n := by
      rw [e, List.take_append_drop]
    rw [← List.append_cancel_left e']
    intro b hb
    exact List.eq_of_mem_replicate hb
  · intro h
    rw [← List.eq_replicate_of_mem h, List.take_append_drop]

/-- **C71**, exact result if the file exists: nothing is written, and there is no error but in the status. -/
theorem C71_existing (r : RawRaster) (image : Fits.Image) (s : Fits.State) (h : s.file = some image) :
    (write r s).file = some image ∧ (s.opened = false → (write r s).failed = true) := by
  obtain ⟨file, opened, failed⟩ := s
  dsimp only at h
  subst h
  cases failed <;> cases opened <;> simp [write, createFile, createImg, writeImg, closeFile]

/-- The calls. -/
inductive Fits.Op
  | write (r : RawRaster)
  | read (N : Int) (width : Nat)

/-- The state after a call. -/
def Fits.Op.run : Fits.Op → Fits.State → Fits.State
  | .write r, s => Fits.write r s
  | .read N width, s => (Fits.read N width s).2

/-- **C71**: after an error, no call ever succeeds nor reports it: the file is left unchanged, and fixed-dimension rasters
which are read have no pixel. -/
theorem C71_failed (ops : List Fits.Op) (s : Fits.State) (h : s.failed = true) (N : Nat) (width : Nat) :
    ((ops.foldl (fun s op => op.run s) s).file = s.file) ∧
      (Fits.read N width (ops.foldl (fun s op => op.run s) s)).1 = .ok ⟨List.replicate N 0, []⟩ := by
  have keep : ∀ (op : Fits.Op) (s : Fits.State), s.failed = true → (op.run s).failed = true ∧ (op.run s).file = s.file := by
    intro op s h
    cases op with
    | write r => simp [Fits.Op.run, write, createFile, createImg, writeImg, closeFile, h]; split <;> simp
    | read N width =>
      unfold Fits.Op.run Fits.read
      have e : openFile s = s := by simp [openFile, h]
      dsimp only
      rw [e]
      cases readShape N s with
      | error e => exact ⟨h, rfl⟩
      | ok shape =>
        simp only [readImg, h, if_true, closeFile]
        split <;> simp
  have hz : shapeSize (List.replicate N 0) = 0 := by
    unfold shapeSize
    by_cases hN : N = 0
    · simp [hN]
    · obtain ⟨M, rfl⟩ := Nat.exists_eq_succ_of_ne_zero hN
      simp only [List.length_replicate, Nat.succ_ne_zero, if_false]
      rw [shapeStride_eq, List.take_of_length_le (by simp), List.prod_replicate, zero_pow (by omega)]
  induction ops generalizing s with
  | nil =>
    refine ⟨rfl, ?_⟩
    have e : openFile s = s := by simp [openFile, h]
    have e' : imgShape s = [] := by simp [imgShape, h]
    have e'' : readShape N s = .ok (List.replicate N 0) := by
      unfold readShape
      rw [e', if_neg (by omega)]
      simp only [List.length_nil, Int.toNat_natCast]
      rw [C70_array_size, if_pos (Or.inr rfl)]
      rfl
    unfold Fits.read
    dsimp only [List.foldl_nil]
    rw [e, e'']
    simp [hz, readImg, h]
  | cons op ops ih =>
    rw [List.foldl_cons]
    obtain ⟨k1, k2⟩ := keep op s h
    obtain ⟨i1, i2⟩ := ih (op.run s) k1
    exact ⟨i1.trans k2, i2⟩

/-- **C71**: a missing file is read as a raster without pixels, without exception. -/
theorem C71_missing (N width : Nat) :
    (Fits.read N width (new none)).1 = .ok ⟨List.replicate N 0, []⟩ := by
  have h := (C71_failed [] ⟨none, false, true⟩ rfl N width).2
  simpa [Fits.read, new, openFile] using h

/-- **C71**: reading an image of another dimension throws, unless it has no axis, and the file is left open. -/
theorem C71_dimension (N width : Nat) (image : Fits.Image) (h0 : image.shape ≠ []) (h : image.shape.length ≠ N) :
    Fits.read N width (new (some image)) = (.error .stdError, ⟨some image, true, false⟩) := by
  have e : imgShape (openFile (new (some image))) = image.shape := rfl
  have h0' : image.shape.length ≠ 0 := by simpa using h0
  have e' : readShape N (openFile (new (some image))) = .error .stdError := by
    unfold readShape
    rw [e, if_neg (by omega), C70_array_size, if_neg (by simp [h0]; omega)]
    rfl
  unfold Fits.read
  dsimp only
  rw [e']
  rfl

/-- **C71**: writing a raster with a negative length creates a file without axis, and the error is only in the status. -/
theorem C71_negative (r : RawRaster) (h : ∃ n ∈ r.shape, n < 0) : write r (new none) = ⟨some ⟨[], []⟩, false, true⟩ := by
  have : r.shape.any (· < 0) = true := by simpa using h
  simp [write, new, createFile, createImg, this, writeImg, closeFile]

/-- **C71**: a file which has not enough bytes is read as null pixels, and the error is only in the status. -/
theorem C71_truncated (N width : Nat) (image : Fits.Image) (hN : image.shape.length = N)
    (h : (image.bytes.length : Int) < shapeSize image.shape) :
    Fits.read N width (new (some image)) =
      (.ok ⟨image.shape, List.replicate (width * (shapeSize image.shape).toNat) 0⟩, ⟨some image, false, true⟩) := by
  have e : imgShape (openFile (new (some image))) = image.shape := rfl
  have e' : readShape N (openFile (new (some image))) = .ok image.shape := by
    unfold readShape
    rw [e, if_neg (by omega), C70_array_size, if_pos (by simp [hN])]
    simp [bind, Except.bind, pure, Except.pure, hN]
  unfold Fits.read
  dsimp only
  rw [e']
  have hn : ¬ (shapeSize image.shape).toNat ≤ image.bytes.length := by omega
  simp [readImg, openFile, new, hn, closeFile]

example : write ⟨[2, -1], []⟩ (new none) = ⟨some ⟨[], []⟩, false, true⟩ ∧
    Fits.read 1 2 (new (some ⟨[3], [1, 2]⟩)) = (.ok ⟨[3], [0, 0, 0, 0, 0, 0]⟩, ⟨some ⟨[3], [1, 2]⟩, false, true⟩) :=
  ⟨C71_negative _ ⟨-1, by simp, by norm_num⟩, C71_truncated 1 2 _ rfl (by decide)⟩

/-- Non-vacuity of C71: 8-bit and 16-bit rasters of shape 2 × 1, and an existing file. -/
example : IsRaster 1 ⟨[2, 1], [7, 255]⟩ ∧ HasDimension 2 [2, 1] ∧
    (Fits.read 2 1 (write ⟨[2, 1], [7, 255]⟩ (new none))).1 = .ok ⟨[2, 1], [7, 255]⟩ ∧
    (Fits.read 2 2 (write ⟨[2, 1], [7, 0, 3, 0]⟩ (new none))).1 = .ok ⟨[2, 1], [7, 0, 0, 0]⟩ ∧
    (Fits.read 2 1 (new (write ⟨[2, 1], [7, 255]⟩ (new (some ⟨[1, 1], [3]⟩))).file)).1 = .ok ⟨[1, 1], [3]⟩ ∧
    (Fits.read 3 1 (new (some ⟨[1, 1], [3]⟩))).1 = .error .stdError :=
  ⟨⟨by decide, by decide, by decide⟩, Or.inr rfl, by decide, by decide, by decide, by decide⟩

end Litl
