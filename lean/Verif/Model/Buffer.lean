import Verif.Model.Erroring

/-!
# Package `buffer`

`FastLongBuffer`, `FastIntBuffer` and `FastObjectBuffer` are three copies of one paged
structure with small differences. The shared code is written once over an element type;
every definition cites each copy it models, and the differences are separate definitions.
-/

namespace GoVtd

/-- The paged buffer. Models the struct types at `vtdxml/buffer/long_buffer.go:23-30`,
`vtdxml/buffer/int_buffer.go:21-28`, `vtdxml/buffer/object_buffer.go:20-27`.
`exp` is a natural number: a negative one panics in the option (or is ignored) before it
is stored. The Go capacity of the slices (not their length) is not modelled. -/
structure Paged (α : Type) where
  buffer : List (List α)
  capacity : Int
  size : Int
  exp : Nat
  r : Int
  pageSize : Int
  deriving DecidableEq, Repr

abbrev FastLongBuffer := Paged (BitVec 64)
abbrev FastIntBuffer := Paged (BitVec 32)
/-- Objects are `interface{}` values; the model leaves their type open. -/
abbrev FastObjectBuffer (α : Type) := Paged α

/-- The error all range checks return: `NewInvalidArgumentError("index", IndexOutOfRange, _)`. -/
def indexErr (e : Option GoErr) : GoErr := newInvalidArgumentError "index" IndexOutOfRange e

namespace Paged
variable {α : Type}

/-- Value before the options run: `vtdxml/buffer/long_buffer.go:41-48`,
`vtdxml/buffer/int_buffer.go:41-48`, `vtdxml/buffer/object_buffer.go:38-45`
(the default page sizes are all 1024). -/
def dflt : Paged α :=
  { buffer := [], capacity := 0, size := 0, exp := 10, r := 1023, pageSize := 1024 }

/-- Effect of a page-size option with a non-negative exponent:
`vtdxml/buffer/long_buffer.go:34-36`, `vtdxml/buffer/int_buffer.go:33-35`,
`vtdxml/buffer/object_buffer.go:31-33`. Both additions wrap at 64 bits. -/
def withPageSize (size : Nat) (b : Paged α) : Paged α :=
  let pageSize := wrap64 (2 ^ size)
  { b with pageSize := pageSize, exp := size, r := wrap64 (pageSize - 1) }

/-- `WithFastLongBufferPageSize` (`vtdxml/buffer/long_buffer.go:32-38`) and
`WithFastObjectBufferPageSize` (`vtdxml/buffer/object_buffer.go:29-35`): shifting by a
negative count is a Go run-time panic. -/
def optPanicking (size : Int) : M (Paged α) Unit :=
  if size < 0 then M.panic else M.modify (withPageSize size.toNat)

/-- `WithFastIntBufferPageSize` (`vtdxml/buffer/int_buffer.go:30-38`): a negative
exponent is ignored. -/
def optIgnoring (size : Int) : M (Paged α) Unit :=
  if size ≥ 0 then M.modify (withPageSize size.toNat) else pure ()

/-- Final check of the constructors: `vtdxml/buffer/long_buffer.go:53-57`,
`vtdxml/buffer/int_buffer.go:54-58`, `vtdxml/buffer/object_buffer.go:50-54`. -/
def checkPageSize : M (Paged α) Unit := do
  let b ← M.get
  if b.pageSize = 0 ∨ b.r < 0 then
    M.raise (newInvalidArgumentError "size" InvalidBufferPageSize none)
  else pure ()

/-- Run a list of options in order (`vtdxml/buffer/long_buffer.go:50-52` and copies). -/
def runOpts {σ : Type} : List (M σ Unit) → M σ Unit
  | [] => pure ()
  | o :: os => do o; runOpts os

/-- `NewFastLongBuffer` with the given exponents as options,
`vtdxml/buffer/long_buffer.go:40-58`. The built buffer is the final state. -/
def newLong (exps : List Int) : Res (Paged α) Unit :=
  (do runOpts (exps.map optPanicking); checkPageSize : M (Paged α) Unit) dflt

/-- `NewFastIntBuffer`, `vtdxml/buffer/int_buffer.go:40-59`. -/
def newInt (exps : List Int) : Res (Paged α) Unit :=
  (do runOpts (exps.map optIgnoring); checkPageSize : M (Paged α) Unit) dflt

/-- `NewFastObjectBuffer`, `vtdxml/buffer/object_buffer.go:37-55`. -/
def newObject (exps : List Int) : Res (Paged α) Unit :=
  (do runOpts (exps.map optPanicking); checkPageSize : M (Paged α) Unit) dflt

/-- `get`: `vtdxml/buffer/long_buffer.go:168-173`, `vtdxml/buffer/int_buffer.go:148-153`,
`vtdxml/buffer/object_buffer.go:116-121`. The check is against `size`, the access is to
the page slice. -/
def get (index : Int) : M (Paged α) (List α) := do
  let b ← M.get
  if index < 0 ∨ index ≥ b.size then M.raise (indexErr none)
  else M.index b.buffer index

/-- `set`: `vtdxml/buffer/long_buffer.go:175-181`, `vtdxml/buffer/int_buffer.go:155-161`,
`vtdxml/buffer/object_buffer.go:123-129`. -/
def set (index : Int) (value : List α) : M (Paged α) Unit := do
  let b ← M.get
  if index < 0 ∨ index ≥ b.size then M.raise (indexErr none)
  else match setAt b.buffer index value with
    | some pages => M.modify fun b => { b with buffer := pages }
    | none => M.panic

/-- `index >> b.exp` on a Go `int` (arithmetic shift). -/
def pageNum (b : Paged α) (index : Int) : Int := index / 2 ^ b.exp

/-- `index & b.r`. Only used where `0 ≤ index`, and every constructor ensures `0 ≤ b.r`. -/
def pageOffset (b : Paged α) (index : Int) : Nat := index.toNat &&& b.r.toNat

/-- Common part of `LongAt`, `IntAt`, `ObjectAt` with the wrapping of the inner error as a
parameter. -/
def atWith (wrapInner : GoErr → GoErr) (index : Int) : M (Paged α) α := do
  let b ← M.get
  let page ← M.catchErr (get (b.pageNum index)) (fun e => M.raise (wrapInner e))
  if index < 0 ∨ index ≥ page.length then M.raise (indexErr none)
  else M.index page (b.pageOffset index)

/-- `LongAt`, `vtdxml/buffer/long_buffer.go:60-73` (the inner error is dropped). -/
def longAt (index : Int) : M FastLongBuffer (BitVec 64) :=
  atWith (fun _ => indexErr none) index

/-- `IntAt`, `vtdxml/buffer/int_buffer.go:61-74` (the inner error is returned as is). -/
def intAt (index : Int) : M FastIntBuffer (BitVec 32) :=
  atWith (fun e => e) index

/-- `ObjectAt`, `vtdxml/buffer/object_buffer.go:57-70` (the inner error is wrapped). -/
def objectAt (index : Int) : M (FastObjectBuffer α) α :=
  atWith (fun e => indexErr (some e)) index

/-- `ModifyEntry`: `vtdxml/buffer/long_buffer.go:75-87`,
`vtdxml/buffer/int_buffer.go:76-89`, `vtdxml/buffer/object_buffer.go:72-85`. -/
def modifyEntry (index : Int) (value : α) : M (Paged α) Unit := do
  let b ← M.get
  let page ← M.catchErr (get (b.pageNum index)) (fun e => M.raise (indexErr (some e)))
  if index < 0 ∨ index ≥ page.length then M.raise (indexErr none)
  else match setAt page (b.pageOffset index) value with
    | some page' => set (b.pageNum index) page'
    | none => M.panic

/-- `GetSize`: `vtdxml/buffer/long_buffer.go:89-91`, `vtdxml/buffer/int_buffer.go:91-93`,
`vtdxml/buffer/object_buffer.go:87-89`. -/
def getSize (b : Paged α) : Int := b.size

/-- `SetSize`: `vtdxml/buffer/long_buffer.go:93-95`, `vtdxml/buffer/int_buffer.go:95-97`,
`vtdxml/buffer/object_buffer.go:91-93`. -/
def setSize (size : Int) (b : Paged α) : Paged α := { b with size := size }

/-- `Clear`: `vtdxml/buffer/long_buffer.go:164-166`, `vtdxml/buffer/int_buffer.go:144-146`,
`vtdxml/buffer/object_buffer.go:112-114`. -/
def clear (b : Paged α) : Paged α := { b with size := 0 }

/-- `Append` of the long and int buffers: `vtdxml/buffer/long_buffer.go:146-162`,
`vtdxml/buffer/int_buffer.go:126-142`. Neither sum is wrapped: `size` counts values held
in memory; `capacity` exceeds it by less than a page, or is not positive for the page size
`-2^63`, where Go's wrapped value is not positive either and the same branch is taken. -/
def append (value : α) : M (Paged α) Unit := do
  let b ← M.get
  if b.size < b.capacity then do
    let page ← get (b.pageNum b.size)
    M.modify fun b => { b with size := b.size + 1 }
    set (b.pageNum b.size) (page ++ [value])
  else
    M.modify fun b => { b with size := b.size + 1, capacity := b.capacity + b.pageSize,
                               buffer := b.buffer ++ [[value]] }

/-- `Append` of the object buffer, `vtdxml/buffer/object_buffer.go:95-110`: the first
branch does not count the new element. -/
def appendObject (value : α) : M (FastObjectBuffer α) Unit := do
  let b ← M.get
  if b.size < b.capacity then do
    let page ← get (b.pageNum b.size)
    set (b.pageNum b.size) (page ++ [value])
  else
    M.modify fun b => { b with size := b.size + 1, capacity := b.capacity + b.pageSize,
                               buffer := b.buffer ++ [[value]] }

/-- Loop of `ToLongArray` (`vtdxml/buffer/long_buffer.go:128-142`) and `ToIntArray`
(`vtdxml/buffer/int_buffer.go:108-122`). The subtraction wraps at 64 bits (it does for
the page size `-2^63`). -/
def toArrayLoop : Nat → Int → Int → List α → M (Paged α) (List α)
  | 0, _, _, _ => M.diverge
  | fuel + 1, i, size, acc =>
    if size > 0 then do
      let page ← get i
      let b ← M.get
      toArrayLoop fuel (i + 1) (wrap64 (size - b.pageSize)) (acc ++ page)
    else pure acc

/-- `ToLongArray` (`vtdxml/buffer/long_buffer.go:120-144`) and `ToIntArray`
(`vtdxml/buffer/int_buffer.go:100-124`). `get` fails once `i` reaches `size`, so
`size + 1` iterations are enough. -/
def toArray : M (Paged α) (List α) := do
  let b ← M.get
  if b.size < 1 then pure []
  else toArrayLoop (b.size.toNat + 2) 0 b.size []

/-- `Lower32At`, `vtdxml/buffer/long_buffer.go:98-105`. -/
def lower32At (index : Int) : M FastLongBuffer (BitVec 32) := do
  let v ← M.catchErr (longAt index) (fun e => M.raise (indexErr (some e)))
  pure (v.setWidth 32)

/-- `Upper32At`, `vtdxml/buffer/long_buffer.go:108-117`. The mask `0xFFFFFFF << 32` has 28
bits; `>>` is the arithmetic shift of a signed value. -/
def upper32At (index : Int) : M FastLongBuffer (BitVec 32) := do
  let v ← M.catchErr (longAt index) (fun e => M.raise (indexErr (some e)))
  pure (((v &&& (0xFFFFFFF#64 <<< 32)).sshiftRight 32).setWidth 32)

end Paged

/-- `UniByteBuffer`, `vtdxml/buffer/byte_buffer.go:12-14`. -/
structure UniByteBuffer where
  buffer : List UInt8
  deriving DecidableEq, Repr

namespace UniByteBuffer

/-- `NewUniByteBuffer`, `vtdxml/buffer/byte_buffer.go:16-23`. `none` is the nil slice. -/
def new (buffer : Option (List UInt8)) : Except GoErr UniByteBuffer :=
  match buffer with
  | none => .error (newInvalidArgumentError "buffer" CannotBeNil none)
  | some b => .ok { buffer := b }

/-- `ByteAt`, `vtdxml/buffer/byte_buffer.go:25-30`. -/
def byteAt (index : Int) : M UniByteBuffer UInt8 := do
  let b ← M.get
  if index ≥ b.buffer.length ∨ index < 0 then M.raise (indexErr none)
  else M.index b.buffer index

/-- `GetByteSlice`, `vtdxml/buffer/byte_buffer.go:32-40`. The sum wraps at 64 bits.
`b.buffer[offset:length]` is the Go slice expression: it panics when `offset > length`
or `length > cap`; here `length < len` whenever it is reached with a sum that did not
wrap. Simplified: slicing between `len` and `cap` is treated as a panic. -/
def getByteSlice (offset length : Int) : M UniByteBuffer (List UInt8) := do
  let b ← M.get
  if offset < 0 ∨ offset ≥ b.buffer.length then
    M.raise (newInvalidArgumentError "offset" IndexOutOfRange none)
  else if length < 1 ∨ wrap64 (offset + length) ≥ b.buffer.length then
    M.raise (newInvalidArgumentError "length" InvalidSliceLength none)
  else if offset > length ∨ length > b.buffer.length then M.panic
  else pure ((b.buffer.drop offset.toNat).take (length - offset).toNat)

/-- `GetBytes`, `vtdxml/buffer/byte_buffer.go:42-44`. -/
def getBytes (b : UniByteBuffer) : List UInt8 := b.buffer

/-- `GetSize`, `vtdxml/buffer/byte_buffer.go:46-48`. -/
def getSize (b : UniByteBuffer) : Int := b.buffer.length

/-- `SetSize`, `vtdxml/buffer/byte_buffer.go:50-52`: does nothing. -/
def setSize (_size : Int) (b : UniByteBuffer) : UniByteBuffer := b

/-- `Clear`, `vtdxml/buffer/byte_buffer.go:54-56`: does nothing. -/
def clear (b : UniByteBuffer) : UniByteBuffer := b

end UniByteBuffer

end GoVtd
