import Verif.Model.Holders

/-!
# FITS files

Model of LitlIo/LitlIo/Fits.h. CFITSIO is modelled after its documentation: functions do nothing if the status is an
error; `fits_create_file` fails if the file exists; `fits_close_file` fails if the file is not open. The data of a raster is
its object representation, as a list of bytes; the data unit of new images is zero.
-/

namespace Litl.Fits

/-- An image extension with `BITPIX = BYTE_IMG`. -/
structure Image where
  /-- `NAXIS1`, `NAXIS2`... -/
  shape : Position
  /-- The data unit. -/
  bytes : List UInt8
deriving DecidableEq

/-- The file named `m_filename`, and the members of the class (LitlIo/LitlIo/Fits.h:64-66). -/
structure State where
  /-- The file, if it exists. -/
  file : Option Image
  /-- `m_fptr != nullptr` -/
  opened : Bool
  /-- `m_status > 0` -/
  failed : Bool
deriving DecidableEq

/-- A raster: `sizeof(T) * shapeSize(shape)` bytes. -/
structure RawRaster where
  shape : Position
  bytes : List UInt8
deriving DecidableEq

/-- `Fits(filename)` (LitlIo/LitlIo/Fits.h:18). -/
def new (file : Option Image) : State := ⟨file, false, false⟩

/-- `fits_create_file` -/
def createFile (s : State) : State :=
  if s.failed then s
  else if s.file.isSome then { s with failed := true }
  else ⟨some ⟨[], []⟩, true, false⟩

/-- `fits_create_img` -/
def createImg (shape : Position) (s : State) : State :=
  if s.failed then s
  else if shape.any (· < 0) then { s with failed := true }
  else { s with file := some ⟨shape, List.replicate (shapeSize shape).toNat 0⟩ }

/-- `fits_write_img` of `n` elements from the first one, with type `TBYTE`: one byte is read for each element. -/
def writeImg (n : Nat) (data : List UInt8) (s : State) : State :=
  if s.failed then s
  else match s.file with
    | some image => { s with file := some ⟨image.shape, data.take n ++ image.bytes.drop n⟩ }
    | none => s

/-- `fits_close_file` and `m_fptr = nullptr` -/
def closeFile (s : State) : State :=
  if s.opened then { s with opened := false } else { s with failed := true }

/-- `write(raster)` (LitlIo/LitlIo/Fits.h:43-62): `size()` is the number of pixels. -/
def write (raster : RawRaster) (s : State) : State :=
  closeFile (writeImg (shapeSize raster.shape).toNat raster.bytes (createImg raster.shape (createFile s)))

/-- `fits_open_file` -/
def openFile (s : State) : State :=
  if s.failed then s
  else if s.file.isSome then { s with opened := true }
  else { s with failed := true }

/-- `fits_get_img_size` of the image which is opened, if any (LitlIo/LitlIo/Fits.h:24, 26); 0 axis otherwise. -/
def imgShape (s : State) : Position :=
  if s.failed then [] else match s.file with
    | some image => image.shape
    | none => []

/-- `Position<N> shape(naxis)`, followed by `fits_get_img_size(shape.data())` (LitlIo/LitlIo/Fits.h:25-26). -/
def readShape (N : Int) (s : State) : Res Position := do
  let init ← Holder.ofSize 0 (if N = -1 then .vector else .array N.toNat) (imgShape s).length none
  return imgShape s ++ init.drop (imgShape s).length

/-- `fits_read_img` of `n` elements from the first one, with type `TBYTE`: one byte is written for each element; fails if
there are not enough elements. -/
def readImg (n : Nat) (data : List UInt8) (s : State) : List UInt8 × State :=
  if s.failed then (data, s)
  else match s.file with
    | some image =>
      if n ≤ image.bytes.length then (image.bytes.take n ++ data.drop n, s) else (data, { s with failed := true })
    | none => (data, s)

/-- `read<Raster<T, N>>()` where `width = sizeof(T)`, and the state afterwards (LitlIo/LitlIo/Fits.h:20-41): an exception
is thrown before the file is closed. -/
def read (N : Int) (width : Nat) (s : State) : Res RawRaster × State :=
  let s' := openFile s
  match readShape N s' with
  | .error e => (.error e, s')
  | .ok shape =>
    let n := (shapeSize shape).toNat
    let r := readImg n (List.replicate (width * n) 0) s'
    (.ok ⟨shape, r.1⟩, closeFile r.2)

end Litl.Fits
