import Verif.Model.Examples
/-!
The command lines of the example programs (`main` of examples/producer.cpp, examples/full-sync.cpp, examples/consumer.cpp) and how
the names of the streams are made.  Texts are lists of bytes (ASCII).  The parts of ndn-cxx and of the standard library used here are
not in /repo; what is assumed about them is written at each definition.
-/
namespace PSync

/-- `std::to_string` of an int that is not negative (examples/producer.cpp:47, examples/full-sync.cpp:57): decimal, no leading
zeros.  `fuel` bounds the number of digits. -/
def decimalFuel : Nat → Nat → Bytes
  | 0, _ => []
  | fuel + 1, n => if n < 10 then [BitVec.ofNat 8 (48 + n)] else decimalFuel fuel (n / 10) ++ [BitVec.ofNat 8 (48 + n % 10)]

/-- `std::to_string`; a number has at most as many digits as its value plus one. -/
def decimal (n : Nat) : Bytes := decimalFuel (n + 1) n

/-- A decimal digit, '0' to '9'. -/
def isDigit (b : Byte) : Bool := decide (48 ≤ b.toNat ∧ b.toNat ≤ 57)

/-- `isspace` in the C locale. -/
def isSpace (b : Byte) : Bool := decide (b.toNat = 32 ∨ (9 ≤ b.toNat ∧ b.toNat ≤ 13))

/-- The value of a list of digits. -/
def digitsValue (ds : Bytes) : Nat := ds.foldl (fun a b => 10 * a + (b.toNat - 48)) 0

/-- `std::stoi(argv[3])` etc. (examples/producer.cpp:103, examples/full-sync.cpp:117, examples/consumer.cpp:114): white space, a sign,
digits; what follows is ignored.  `none`: std::invalid_argument (no digits) or std::out_of_range (not an int). -/
def stoi (t : Bytes) : Option Int :=
  let t := t.dropWhile isSpace
  let neg := t.head? == some 45#8
  let t := if neg || t.head? == some 43#8 then t.tail else t
  let ds := t.takeWhile isDigit
  if ds.isEmpty then none
  else
    let v : Int := if neg then -(digitsValue ds : Int) else digitsValue ds
    if -2147483648 ≤ v ∧ v < 2147483648 then some v else none

/-- The value of a hexadecimal digit. -/
def hexDigit (b : Byte) : Option Nat :=
  let n := b.toNat
  if 48 ≤ n ∧ n ≤ 57 then some (n - 48)
  else if 65 ≤ n ∧ n ≤ 70 then some (n - 55)
  else if 97 ≤ n ∧ n ≤ 102 then some (n - 87)
  else none

/-- ndn-cxx `unescape`: `%` and two hexadecimal digits stand for a byte; `%` and two other characters stand for themselves. -/
def unescape : Bytes → Bytes
  | a :: b :: c :: r =>
    if a = 37#8 then
      match hexDigit b, hexDigit c with
      | some h, some l => BitVec.ofNat 8 (16 * h + l) :: unescape r
      | _, _ => a :: b :: c :: unescape r
    else a :: unescape (b :: c :: r)
  | r => r

/-- ndn-cxx `Component::fromEscapedString`.  `none`: an exception (no characters, "." or "..").  Three or more dots stand for a component
with three fewer; text with an equal sign is a component with a type, left to `typed`. -/
def componentOfText (typed : Bytes → Option Component) (t : Bytes) : Option Component :=
  if 61#8 ∈ t then typed t
  else
    let v := unescape t
    if v.all (· == 46#8) then
      if v.length < 3 then none else some ⟨TlvType.generic, v.drop 3⟩
    else some ⟨TlvType.generic, v⟩

/-- The text between slashes; nothing after a slash at the end.  `acc`: the characters since the last slash. -/
def textParts : Bytes → Bytes → List Bytes
  | acc, [] => if acc.isEmpty then [] else [acc]
  | acc, c :: r => if c = 47#8 then acc :: textParts [] r else textParts (acc ++ [c]) r

/-- The text after a scheme ("ndn:", a colon before the first slash). -/
def afterScheme (t : Bytes) : Bytes :=
  match t.dropWhile (fun c => c != 58#8 && c != 47#8) with
  | c :: r => if c = 58#8 then r else t
  | [] => t

/-- The text after the first slash, or after the slash that ends an authority ("//host/"). -/
def afterAuthority : Bytes → Bytes
  | [] => []
  | a :: r =>
    if a = 47#8 then
      match r with
      | [] => []
      | b :: r' => if b = 47#8 then (r'.dropWhile (fun c => c != 47#8)).tail else b :: r'
    else a :: r

/-- All parts of a text as components; `none` as soon as one has none. -/
def componentsOf (typed : Bytes → Option Component) : List Bytes → Option Name
  | [] => some []
  | p :: ps =>
    match componentOfText typed p, componentsOf typed ps with
    | some c, some cs => some (c :: cs)
    | _, _ => none

/-- ndn-cxx `Name(uri)`; `none`: an exception. -/
def nameOfText (typed : Bytes → Option Component) (t : Bytes) : Option Name :=
  componentsOf typed (textParts [] (afterAuthority (afterScheme t)))

/-- The text of the i-th stream: `userPrefix + "-" + std::to_string(i)`, examples/producer.cpp:47, examples/full-sync.cpp:57. -/
def streamText (userPrefix : Bytes) (i : Nat) : Bytes := userPrefix ++ 45#8 :: decimal i

/-- What becomes of a program that is started: it prints how it is used and exits with 1, it logs an exception and exits with 0, or the
application runs. -/
inductive Started (α : Type) where
  | usage
  | failed
  | running (a : α)

/-- `main` of examples/producer.cpp:93-109 and examples/full-sync.cpp:107-123 up to the start of the application; `args` are argv[0],
argv[1], …  `env`: what does not depend on the command line.  (A stream whose name cannot be made ends the constructor with an
exception; the streams before it are gone then, like the producer.) -/
def pubMain (typed : Bytes → Option Component) (env : PubAppCfg) (args : List Bytes) : Started PubAppCfg :=
  match args with
  | [_, syncPrefix, userPrefix, num, maxPublish] =>
    match nameOfText typed syncPrefix, stoi num, stoi maxPublish with
    | some sp, some n, some m =>
      if (List.range n.toNat).all (fun i => (nameOfText typed (streamText userPrefix i)).isSome) then
        .running { env with
          pc := { env.pc with syncPrefix := sp }
          stream := fun i => (nameOfText typed (streamText userPrefix i)).getD []
          num := n
          maxPublish := m }
      else .failed
    | _, _, _ => .failed
  | _ => .usage

/-- `main` of examples/consumer.cpp:105-120 up to the start of the application. -/
def consMain (typed : Bytes → Option Component) (env : ConsAppCfg) (args : List Bytes) : Started ConsAppCfg :=
  match args with
  | [_, syncPrefix, nSub] =>
    match nameOfText typed syncPrefix, stoi nSub with
    | some sp, some n => .running { env with cc := { env.cc with syncPrefix := sp }, nSub := n }
    | _, _ => .failed
  | _ => .usage

end PSync
