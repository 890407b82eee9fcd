import Verif.Common

/-!
# Model of the portable binary archive (`sm_boost`)

Source: `/repo/Schweizer-Messer/sm_boost/{include/sm_boost,src}/portable_binary_{archive,oarchive,iarchive}`.

A byte is a natural number below 256 and a stream is a list of bytes.  The machine that runs the
code has a byte order; the preprocessor symbol `BOOST_ENDIAN_BIG_BYTE` tested by `#ifdef` is a
separate parameter, because Boost.Predef *always* defines it (to zero on little-endian machines).
The archive header (signature and library version) is not modelled; the flag byte that follows it
is represented by passing the same `Flag` to writer and reader.
-/

namespace Kalibr.Archive

/-- Byte order of a machine. -/
inductive Endian | little | big
  deriving DecidableEq, Repr

/-- The byte-order flag of the stream (portable_binary_archive.hpp:36-39); `native` is "neither". -/
inductive Flag | native | little | big
  deriving DecidableEq, Repr

/-- A build of the library: the byte order of the machine and whether `BOOST_ENDIAN_BIG_BYTE` is
defined. -/
structure Config where
  machine : Endian
  macroDefined : Bool
  deriving DecidableEq, Repr

/-- The `k` bytes of `n`, least significant first. -/
def leBytes : Nat → Nat → List Nat
  | 0, _ => []
  | k + 1, n => n % 256 :: leBytes k (n / 256)

/-- The number whose little-endian bytes are given. -/
def ofLE : List Nat → Nat
  | [] => 0
  | b :: bs => b + 256 * ofLE bs

/-- The eight bytes in memory of a non-negative 64-bit integer. -/
def memOf (m : Endian) (n : Nat) : List Nat :=
  match m with
  | .little => leBytes 8 n
  | .big => (leBytes 8 n).reverse

/-- The 64-bit pattern held by eight bytes of memory. -/
def ofMem (m : Endian) (bs : List Nat) : Nat :=
  match m with
  | .little => ofLE bs
  | .big => ofLE bs.reverse

/-- The loop of `reverse_bytes` (portable_binary_archive.hpp:45-54) with `first = i`, `last = j`
as offsets. -/
def reverseLoop (bs : List Nat) (i j : Nat) : List Nat :=
  if i < j then
    reverseLoop ((bs.set j (bs.getD i 0)).set i (bs.getD j 0)) (i + 1) (j - 1)
  else bs
  termination_by j - i

/-- `reverse_bytes(size, address)` (portable_binary_archive.hpp:45-54); `size ≥ 1` at each call. -/
def reverseBytes (bs : List Nat) : List Nat := reverseLoop bs 0 (bs.length - 1)

/-- `do { ll >>= CHAR_BIT; ++size; } while (ll != 0)` (portable_binary_oarchive.cpp:38-41), for a
non-negative `ll`. -/
def byteLoop (ll size : Nat) : Nat :=
  if ll / 256 = 0 then size + 1 else byteLoop (ll / 256) (size + 1)
  termination_by ll
  decreasing_by omega

/-- The `#ifdef BOOST_ENDIAN_BIG_BYTE` selection of the `size` bytes to be written, before a
possible reversal (portable_binary_oarchive.cpp:51-59). -/
def selectBytes (c : Config) (f : Flag) (n size : Nat) : List Nat :=
  if c.macroDefined then
    let bs := (memOf c.machine n).drop (8 - size)
    if f = .little then reverseBytes bs else bs
  else
    let bs := (memOf c.machine n).take size
    if f = .big then reverseBytes bs else bs

/-- `portable_binary_oarchive::save_impl` (portable_binary_oarchive.cpp:19-61).  Negating the
smallest `intmax_t` is undefined.  The size is written as one signed byte. -/
def save (c : Config) (f : Flag) (l : Int) : Out (List Nat) :=
  if l = 0 then .ok [0]
  else if l = -9223372036854775808 then .ub
  else
    let ll := l.natAbs
    let size := byteLoop ll 0
    .ok ((if l < 0 then 256 - size else size) :: selectBytes c f ll size)

/-- Two's complement reading of a 64-bit pattern. -/
def asInt64 (n : Nat) : Int :=
  if n < 9223372036854775808 then n else (n : Int) - 18446744073709551616

/-- `portable_binary_iarchive::load_impl` (portable_binary_iarchive.cpp:22-56), returning the
`intmax_t` and the rest of the stream.  A stream that ends early raises (Boost's `load_binary`);
a size byte of -128 negates to -128 and reads with a negative length, which is undefined. -/
def loadImpl (c : Config) (f : Flag) (maxsize : Nat) : List Nat → Out (Int × List Nat)
  | [] => .raise
  | b :: s =>
    if b = 0 then .ok (0, s)
    else if b = 128 then .ub
    else
      let negative := decide (128 < b)
      let size := if negative then 256 - b else b
      if size > maxsize then .raise
      else if s.length < size then .raise
      else
        let bs := s.take size
        let v := if c.macroDefined then
            ofMem c.machine (List.replicate (8 - size) 0 ++
              (if f = .little then reverseBytes bs else bs))
          else
            ofMem c.machine ((if f = .big then reverseBytes bs else bs) ++
              List.replicate (8 - size) 0)
        let l := asInt64 v
        if negative ∧ l = -9223372036854775808 then .ub
        else .ok (if negative then -l else l, s.drop size)

/-- An integer type of the reader: number of bytes and signedness. -/
structure IntType where
  bytes : Nat
  signed : Bool
  deriving DecidableEq, Repr

/-- The values an integer type can hold. -/
def IntType.Fits (T : IntType) (v : Int) : Prop :=
  if T.signed then -(2 : Int) ^ (8 * T.bytes - 1) ≤ v ∧ v < (2 : Int) ^ (8 * T.bytes - 1)
  else 0 ≤ v ∧ v < (2 : Int) ^ (8 * T.bytes)

/-- The conversion `T(l)`. -/
def IntType.cast (T : IntType) (v : Int) : Int :=
  if T.signed then
    (v + (2 : Int) ^ (8 * T.bytes - 1)) % (2 : Int) ^ (8 * T.bytes) - (2 : Int) ^ (8 * T.bytes - 1)
  else v % (2 : Int) ^ (8 * T.bytes)

/-- `template<class T> void load(T&)` (portable_binary_iarchive.hpp:119-126). -/
def load (c : Config) (f : Flag) (T : IntType) (s : List Nat) : Out (Int × List Nat) := do
  let p ← loadImpl c f T.bytes s
  return (T.cast p.1, p.2)

/-- Writing several integers one after another. -/
def saveAll (c : Config) (f : Flag) : List Int → Out (List Nat)
  | [] => .ok []
  | v :: vs => do
    let a ← save c f v
    let b ← saveAll c f vs
    return a ++ b

/-- Reading several integers, of the given types. -/
def loadAll (c : Config) (f : Flag) : List IntType → List Nat → Out (List Int × List Nat)
  | [], s => .ok ([], s)
  | T :: Ts, s => do
    let p ← load c f T s
    let q ← loadAll c f Ts p.2
    return (p.1 :: q.1, q.2)

end Kalibr.Archive
