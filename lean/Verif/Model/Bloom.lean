import Verif.Model.Murmur
/-!
`psync::detail::BloomFilter`: PSync/detail/bloom-filter.hpp, PSync/detail/bloom-filter.cpp.
-/
namespace PSync

/-- A C++ `double`, by bit pattern. -/
abbrev Double := BitVec 64

/-- Floating point operations of `compute_optimal_parameters` and of the wire format.  Their numeric
behaviour is a parameter: theorems hold for every choice unless stated.  `Libm.ieee` (Model/Ieee.lean) is IEEE 754 arithmetic. -/
structure Libm where
  /-- `p.false_positive_probability < 0.0 || infinity == abs(...)`, bloom-filter.cpp:94-95 -/
  invalidProb : Double → Bool
  /-- `numerator / denominator` for a given element count, probability and k, bloom-filter.cpp:152-155 -/
  currM : Nat → Double → Nat → Double
  /-- `<` on doubles (false on NaN), bloom-filter.cpp:157 -/
  lt : Double → Double → Bool
  /-- `numeric_limits<double>::infinity()`, bloom-filter.cpp:146 -/
  inf : Double
  /-- `static_cast<unsigned int>(x)`; `none` = undefined behaviour, bloom-filter.cpp:170 -/
  toU32 : Double → Option Nat
  /-- `static_cast<uint64_t>(x * 1000)`; `none` = undefined behaviour, bloom-filter.cpp:240 -/
  toThousandths : Double → Option Nat
  /-- `n / 1000.`, PSync/partial-producer.cpp:139 -/
  ofThousandths : Nat → Double

/-- The search loop, bloom-filter.cpp:146-164, over the remaining values of k; keeps the first minimum. -/
def Libm.searchFrom (fl : Libm) (count : Nat) (fpp : Double) : List Nat → Double → Nat → Double × Nat
  | [], m, best => (m, best)
  | k :: ks, m, best =>
    if fl.lt (fl.currM count fpp k) m then fl.searchFrom count fpp ks (fl.currM count fpp k) k
    else fl.searchFrom count fpp ks m best

/-- bloom-filter.cpp:146-164: k = 1 … 999. -/
def Libm.search (fl : Libm) (count : Nat) (fpp : Double) : Double × Nat :=
  fl.searchFrom count fpp (List.range' 1 999) fl.inf 0

/-- Rounding to whole bytes in `unsigned int` arithmetic and clamping to
[minimum_size, maximum_size] = [1, 2^32-1], bloom-filter.cpp:170-182. -/
def bloomTableSize (m : Nat) : Nat :=
  let ts := if m % 8 ≠ 0 then (m + (8 - m % 8)) % 4294967296 else m
  if ts < 1 then 1 else ts

/-- Number of hashes clamped to at least 1, bloom-filter.cpp:168,174-177. -/
def bloomNumHashes (k : Nat) : Nat := if k < 1 then 1 else k

/-- bloom-filter.cpp:87-98,133-185 `operator!` and `compute_optimal_parameters`;
result (number_of_hashes, table_size); throws via makeParameters, bloom-filter.cpp:212-214. -/
def optimalParams (fl : Libm) (count : Nat) (fpp : Double) : Res (Nat × Nat) :=
  if count = 0 ∨ fl.invalidProb fpp then .throw .bloom
  else
    match fl.toU32 (fl.search count fpp).1 with
    | none => .ub .floatCast
    | some m => .ok (bloomNumHashes (fl.search count fpp).2, bloomTableSize m)

/-- The predefined salts, bloom-filter.cpp:304-338. -/
def predefSalt : List U32 := [
  0xAAAAAAAA#32, 0x55555555#32, 0x33333333#32, 0xCCCCCCCC#32,
  0x66666666#32, 0x99999999#32, 0xB5B5B5B5#32, 0x4B4B4B4B#32,
  0xAA55AA55#32, 0x55335533#32, 0x33CC33CC#32, 0xCC66CC66#32,
  0x66996699#32, 0x99B599B5#32, 0xB54BB54B#32, 0x4BAA4BAA#32,
  0xAA33AA33#32, 0x55CC55CC#32, 0x33663366#32, 0xCC99CC99#32,
  0x66B566B5#32, 0x994B994B#32, 0xB5AAB5AA#32, 0xAAAAAA33#32,
  0x555555CC#32, 0x33333366#32, 0xCCCCCC99#32, 0x666666B5#32,
  0x9999994B#32, 0xB5B5B5AA#32, 0xFFFFFFFF#32, 0xFFFF0000#32,
  0xB823D5EB#32, 0xC1191CDF#32, 0xF623AEB3#32, 0xDB58499F#32,
  0xC8D42E70#32, 0xB173F616#32, 0xA91A5967#32, 0xDA427D63#32,
  0xB1E8A2EA#32, 0xF6C0D155#32, 0x4909FEA3#32, 0xA68CC6A7#32,
  0xC395E782#32, 0xA26057EB#32, 0x0CD5DA28#32, 0x467C5492#32,
  0xF15E6982#32, 0x61C6FAD3#32, 0x9615E352#32, 0x6E9E355A#32,
  0x689B563E#32, 0x0C9831A8#32, 0x6753C18B#32, 0xA622689B#32,
  0x8CA63C47#32, 0x42CC2884#32, 0x8E89919B#32, 0x6EDBD7D3#32,
  0x15B6796C#32, 0x1D6FDFE4#32, 0x63FF9092#32, 0xE7401432#32,
  0xEFFE9412#32, 0xAEAEDF79#32, 0x9F245A31#32, 0x83C136FC#32,
  0xC3DA4A8C#32, 0xA5112C8C#32, 0x5271F491#32, 0x9A948DAB#32,
  0xCEE59A8D#32, 0xB5F525AB#32, 0x59D13217#32, 0x24E7C331#32,
  0x697C2103#32, 0x84B0A460#32, 0x86156DA9#32, 0xAEF2AC68#32,
  0x23243DA5#32, 0x3F649643#32, 0x5FA495A8#32, 0x67710DF8#32,
  0x9A6C499E#32, 0xDCFB0227#32, 0x46A43433#32, 0x1832B07A#32,
  0xC46AFF3C#32, 0xB9C8FFF0#32, 0xC9500467#32, 0x34431BDF#32,
  0xB652432B#32, 0xE367F12B#32, 0x427F4C1B#32, 0x224C006E#32,
  0x2E7E5A89#32, 0x96F99AA5#32, 0x0BEB452A#32, 0x2FD87C39#32,
  0x74B2E1FB#32, 0x222EFD24#32, 0xF357F60C#32, 0x440FCB1E#32,
  0x8BBE030F#32, 0x6704DC29#32, 0x1144D12F#32, 0x948B1355#32,
  0x6D8FD7E9#32, 0x1C11A014#32, 0xADD1592F#32, 0xFB3C712E#32,
  0xFC77642F#32, 0xF9C4CE8C#32, 0x31312FB9#32, 0x08B0DD79#32,
  0x318FA6E7#32, 0xC040D23D#32, 0xC0589AA7#32, 0x0CA5C075#32,
  0xF874B172#32, 0x0CF914D5#32, 0x784D3280#32, 0x4E8CFEBC#32,
  0xC569F575#32, 0xCDB2A091#32, 0x2CC016B4#32, 0x5C5F4421#32]

/-- `static_cast<bloom_type>(random_seed_)`, bloom-filter.cpp:84,193,354. -/
def bloomSeed32 : U32 := (0xA5A5A5A55A5A5A5A#64 * 0xA5A5A5A5#64 + 1#64).setWidth 32

/-- The in-place mixing loop, bloom-filter.cpp:346-355. -/
def mixSalts (s : List U32) : List U32 :=
  (List.range s.length).foldl
    (fun s i => s.set i (s.getD i 0#32 * s.getD ((i + 3) % s.length) 0#32 + bloomSeed32)) s

/-- bloom-filter.cpp:293-376 `generate_unique_salt`.  Simplification: the branch for more than 128
hashes draws from libc `rand()` seeded with a constant; it is modelled as the predefined salts
followed by an unspecified deterministic stream `extra`. -/
def genSalts (extra : Nat → U32) (n : Nat) : List U32 :=
  if n ≤ 128 then mixSalts (predefSalt.take n)
  else predefSalt ++ (List.range (n - 128)).map extra

/-- bloom-filter.hpp:133-141.  (`salt_count_`, `inserted_element_count_`, `random_seed_` are not
observable and are omitted.) -/
structure Bloom where
  salts : List U32
  bits : Bytes
  tableSize : Nat
  projected : Nat
  fpp : Double
  deriving DecidableEq, Repr

/-- Default constructor, bloom-filter.hpp:68. -/
def Bloom.default : Bloom := ⟨[], [], 0, 0, 0#64⟩

/-- bloom-filter.cpp:190-222 constructor from count and probability. -/
def Bloom.new (fl : Libm) (extra : Nat → U32) (count : Nat) (fpp : Double) : Res Bloom :=
  Res.bind (optimalParams fl count fpp) fun kt =>
    .ok ⟨genSalts extra kt.1, List.replicate (kt.2 / 8) 0#8, kt.2, count, fpp⟩

/-- bloom-filter.cpp:224-234 constructor with a received table. -/
def Bloom.ofComponent (fl : Libm) (extra : Nat → U32) (count : Nat) (fpp : Double) (c : Component) :
    Res Bloom :=
  Res.bind (Bloom.new fl extra count fpp) fun bf =>
    if c.value.length ≠ bf.tableSize / 8 then .throw .bloom else .ok { bf with bits := c.value }

/-- bloom-filter.cpp:236-242 `appendToName`: the three appended components. -/
def Bloom.toComponents (fl : Libm) (bf : Bloom) : Res (List Component) :=
  match fl.toThousandths bf.fpp with
  | none => .ub .floatCast
  | some t => .ok [⟨TlvType.generic, nniBytes bf.projected⟩, ⟨TlvType.generic, nniBytes t⟩,
                   ⟨TlvType.generic, bf.bits⟩]

/-- bloom-filter.cpp:244-249 `clear`. -/
def Bloom.clear (bf : Bloom) : Bloom := { bf with bits := bf.bits.map (fun _ => 0#8) }

/-- bit_mask, bloom-filter.cpp:62-71. -/
def bitMask (bit : Nat) : Byte := 1#8 <<< bit

/-- bloom-filter.cpp:286-291 `compute_indices`: `hash % table_size_` (undefined for size 0). -/
def Bloom.index (bf : Bloom) (salt : U32) (key : Name) : Nat :=
  (murmurName salt key).toNat % bf.tableSize

/-- Body of the loop of bloom-filter.cpp:257-262. -/
def Bloom.setBit (bf : Bloom) (key : Name) (bits : Bytes) (salt : U32) : Res Bytes :=
  if bf.tableSize = 0 then .ub .divByZero
  else
    let bi := bf.index salt key
    match bits[bi / 8]? with
    | none => .ub .outOfBounds
    | some w => .ok (bits.set (bi / 8) (w ||| bitMask (bi % 8)))

/-- bloom-filter.cpp:251-265 `insert`. -/
def Bloom.insert (bf : Bloom) (key : Name) : Res Bloom :=
  Res.bind (foldRes (bf.setBit key) bf.bits bf.salts) fun bits => .ok { bf with bits := bits }

/-- Loop of bloom-filter.cpp:273-281. -/
def Bloom.containsLoop (bf : Bloom) (key : Name) : List U32 → Res Bool
  | [] => .ok true
  | salt :: rest =>
    if bf.tableSize = 0 then .ub .divByZero
    else
      let bi := bf.index salt key
      match bf.bits[bi / 8]? with
      | none => .ub .outOfBounds
      | some w => if w &&& bitMask (bi % 8) ≠ bitMask (bi % 8) then .ok false
                  else bf.containsLoop key rest

/-- bloom-filter.cpp:267-284 `contains`. -/
def Bloom.contains (bf : Bloom) (key : Name) : Res Bool := bf.containsLoop key bf.salts

end PSync
