import Verif.Model.Core

/-!
# `Litl::AlignedBuffer`

Model of LitlContainer/LitlContainer/AlignedBuffer.h, at two levels: addresses (64-bit words) for alignment, and
blocks of an abstract heap for ownership and contents.
-/

namespace Litl.Aligned

/-! ## Addresses -/

/-- `alignAs(data, align)` (LitlContainer/LitlContainer/AlignedBuffer.h:259-269). -/
def alignAs (data align : BitVec 64) : BitVec 64 :=
  if align = -1 then 64
  else if align = 0 then (if data ≠ 0 then 1 else 64)
  else align

/-- `isAligned(ptr, as)` (LitlContainer/LitlContainer/AlignedBuffer.h:22-30); modulo 0 is undefined behaviour. -/
def isAligned (ptr as : BitVec 64) : Res Bool :=
  if ptr = 0 then .error .exception
  else if as = 1 then .ok true
  else if as = 0 then .error .ub
  else .ok (ptr % as == 0)

/-- `(std::uintptr_t(m_container) + (m_as - 1)) & ~(m_as - 1)` (LitlContainer/LitlContainer/AlignedBuffer.h:122, 154). -/
def alignUp (container as : BitVec 64) : BitVec 64 := (container + (as - 1)) &&& ~~~(as - 1)

/-- `sizeof(T) * m_size + m_as - 1`, the number of bytes which are allocated
(LitlContainer/LitlContainer/AlignedBuffer.h:121, 153). -/
def allocBytes (elem size as : BitVec 64) : BitVec 64 := elem * size + as - 1

/-- The constructor (LitlContainer/LitlContainer/AlignedBuffer.h:116-124): the data pointer and the requirement;
`malloc` maps a number of bytes to an address. -/
def construct (malloc : BitVec 64 → BitVec 64) (elem size data align : BitVec 64) : Res (BitVec 64 × BitVec 64) :=
  let as := alignAs data align
  if data ≠ 0 then do
    let ok ← isAligned data as
    if ok then .ok (data, as) else .error .alignment
  else .ok (alignUp (malloc (allocBytes elem size as)) as, as)

/-- The loop of `alignment(ptr)` from some value of `as` (LitlContainer/LitlContainer/AlignedBuffer.h:42-45). -/
inductive AlignmentLoop (ptr : BitVec 64) : BitVec 64 → Res (BitVec 64) → Prop
  | ub {as : BitVec 64} : as = 0 → AlignmentLoop ptr as (.error .ub)
  | next {as : BitVec 64} {r : Res (BitVec 64)} : as ≠ 0 → ptr % as = 0 → AlignmentLoop ptr (as <<< 1) r →
      AlignmentLoop ptr as r
  | done {as : BitVec 64} : as ≠ 0 → ptr % as ≠ 0 → AlignmentLoop ptr as (.ok (as >>> 1))

/-- `alignment(ptr)` (LitlContainer/LitlContainer/AlignedBuffer.h:37-46). -/
def Alignment (ptr : BitVec 64) (r : Res (BitVec 64)) : Prop :=
  if ptr = 0 then r = .error .exception else AlignmentLoop ptr 2 r

/-! ## Ownership and contents -/

/-- Memory regions: blocks of the heap, and foreign memory (stack, other allocators...). -/
inductive Region
  | heap (b : Nat)
  | foreign (k : Nat)
  deriving DecidableEq

/-- A pointer to an element. -/
abbrev Ptr := Region × Nat

/-- The members of a buffer (LitlContainer/LitlContainer/AlignedBuffer.h:275-290).
The alignment requirement and padding are left out: the elements of a block start at offset 0. -/
structure Buffer where
  /-- `m_size`. -/
  size : Nat
  /-- `m_container`. -/
  container : Option Nat
  /-- `m_data`. -/
  data : Option Ptr
  deriving DecidableEq

/-- The program state. -/
structure State (α : Type) where
  /-- The buffers which are alive, by name. -/
  objs : Nat → Option Buffer
  /-- The blocks which are allocated. -/
  live : List Nat
  /-- The number of allocations so far: blocks have never been allocated from there on. -/
  next : Nat
  /-- The blocks which were returned to the user by `release()` and not freed yet. -/
  released : List Nat
  /-- The calls to `std::free` for blocks which are not allocated. -/
  badFrees : List Nat
  /-- The contents. -/
  mem : Region → Nat → α

variable {α : Type}

/-- The initial state. -/
def init (mem : Region → Nat → α) : State α := ⟨fun _ => none, [], 0, [], [], mem⟩

/-- `std::free`. -/
def free (s : State α) (b : Nat) : State α :=
  if b ∈ s.live then { s with live := s.live.erase b } else { s with badFrees := b :: s.badFrees }

/-- `std::malloc`, which may fail. -/
def malloc (s : State α) (ok : Bool) : State α × Option Nat :=
  if ok then ({ s with live := s.next :: s.live, next := s.next + 1 }, some s.next) else (s, none)

/-- Set or destroy an object. -/
def setObj (s : State α) (i : Nat) (b : Option Buffer) : State α :=
  { s with objs := fun j => if j = i then b else s.objs j }

/-- Write an element. -/
def poke (s : State α) (p : Ptr) (v : α) : State α :=
  { s with mem := fun r k => if (r, k) = p then v else s.mem r k }

/-- `std::copy_n` between pointers. -/
def copyN (s : State α) (src dst : Ptr) : Nat → State α
  | 0 => s
  | n + 1 =>
    let s' := copyN s src dst n
    poke s' (dst.1, dst.2 + n) (s'.mem src.1 (src.2 + n))

/-- Deep copy of the contents of a buffer to the block which was just allocated
(LitlContainer/LitlContainer/AlignedBuffer.h:132, 155): undefined if the allocation failed. -/
def copyTo (s : State α) (src : Option Ptr) (dst : Option Nat) (n : Nat) : Res (State α) :=
  match src, dst, n with
  | _, _, 0 => .ok s
  | some p, some b, n => .ok (copyN s p (.heap b, 0) n)
  | _, _, _ => .error .ub

/-- `reset()` (LitlContainer/LitlContainer/AlignedBuffer.h:248-256) of a buffer named `i`. -/
def reset (s : State α) (i : Nat) (b : Buffer) : State α :=
  let s := match b.container with
    | some c => free s c
    | none => s
  setObj s i (some ⟨0, none, none⟩)

/-- The operations of a program on its buffers.  The Boolean tells whether `std::malloc` succeeds if it is called. -/
inductive Op (α : Type)
  | construct (i size : Nat) (data : Option Ptr) (ok : Bool)
  | copyConstruct (i other : Nat) (ok : Bool)
  | moveConstruct (i other : Nat)
  | copyAssign (i other : Nat) (ok : Bool)
  | moveAssign (i other : Nat)
  | destroy (i : Nat)
  | release (i : Nat)
  | reset (i : Nat)
  | userFree (b : Nat)
  | write (i k : Nat) (v : α)

/-- One operation.  `.exception` stands for ill-formed programs: construction of an object which is alive, use of an
object which is not, access out of bounds, free of a block which was not obtained from `release()`. -/
def step (s : State α) : Op α → Res (State α)
  /- LitlContainer/LitlContainer/AlignedBuffer.h:116-124 -/
  | .construct i size data ok =>
    match s.objs i, data with
    | some _, _ => .error .exception
    | none, some p => .ok (setObj s i (some ⟨size, none, some p⟩))
    | none, none =>
      let (s, b) := malloc s ok
      .ok (setObj s i (some ⟨size, b, b.map fun b => (.heap b, 0)⟩))
  /- LitlContainer/LitlContainer/AlignedBuffer.h:129-135: a non-owning buffer without data is constructed with a null
  pointer, and thus allocates. -/
  | .copyConstruct i other ok =>
    match s.objs i, s.objs other with
    | none, some o =>
      match o.container, o.data with
      | none, some p => .ok (setObj s i (some ⟨o.size, none, some p⟩))
      | none, none =>
        let (s, b) := malloc s ok
        .ok (setObj s i (some ⟨o.size, b, b.map fun b => (.heap b, 0)⟩))
      | some _, src => do
        let (s, b) := malloc s ok
        let s ← copyTo s src b o.size
        .ok (setObj s i (some ⟨o.size, b, b.map fun b => (.heap b, 0)⟩))
    | _, _ => .error .exception
  /- LitlContainer/LitlContainer/AlignedBuffer.h:140-143 -/
  | .moveConstruct i other =>
    match s.objs i, s.objs other with
    | none, some o =>
      let s := setObj s i (some ⟨o.size, none, o.data⟩)
      .ok (reset s other { o with container := none })
    | _, _ => .error .exception
  /- LitlContainer/LitlContainer/AlignedBuffer.h:148-162 -/
  | .copyAssign i other ok =>
    match s.objs i, s.objs other with
    | some _, some o =>
      if i = other then .ok s
      else match o.container with
        | some _ => do
          let (s, b) := malloc s ok
          let s ← copyTo s o.data b o.size
          .ok (setObj s i (some ⟨o.size, b, b.map fun b => (.heap b, 0)⟩))
        | none => .ok (setObj s i (some ⟨o.size, none, o.data⟩))
    | _, _ => .error .exception
  /- LitlContainer/LitlContainer/AlignedBuffer.h:167-177 -/
  | .moveAssign i other =>
    match s.objs i, s.objs other with
    | some _, some o =>
      if i = other then .ok s
      else .ok (reset (setObj s i (some o)) other { o with container := none })
    | _, _ => .error .exception
  /- LitlContainer/LitlContainer/AlignedBuffer.h:184-186 -/
  | .destroy i =>
    match s.objs i with
    | some b => .ok (setObj (reset s i b) i none)
    | none => .error .exception
  /- LitlContainer/LitlContainer/AlignedBuffer.h:236-240 -/
  | .release i =>
    match s.objs i with
    | some b =>
      .ok { setObj s i (some { b with container := none }) with released := b.container.toList ++ s.released }
    | none => .error .exception
  /- LitlContainer/LitlContainer/AlignedBuffer.h:248-256 -/
  | .reset i =>
    match s.objs i with
    | some b => .ok (reset s i b)
    | none => .error .exception
  /- `std::free(buffer.release())` -/
  | .userFree b =>
    if b ∈ s.released then .ok (free { s with released := s.released.erase b } b) else .error .exception
  /- `buffer.data()[k] = v` -/
  | .write i k v =>
    match s.objs i with
    | some ⟨size, _, some p⟩ => if k < size then .ok (poke s (p.1, p.2 + k) v) else .error .exception
    | _ => .error .exception

/-- A history. -/
def run (s : State α) : List (Op α) → Res (State α)
  | [] => .ok s
  | op :: ops => do
    let s ← step s op
    run s ops

/-- `buffer.data()[k]`. -/
def read (s : State α) (i k : Nat) : Option α :=
  match s.objs i with
  | some ⟨size, _, some p⟩ => if k < size then some (s.mem p.1 (p.2 + k)) else none
  | _ => none

/-- `owns()` (LitlContainer/LitlContainer/AlignedBuffer.h:208-210), with the block. -/
def Owns (s : State α) (i b : Nat) : Prop := ∃ o, s.objs i = some o ∧ o.container = some b

end Litl.Aligned
