import Verif.Traffic.Traffic
/-!
# The date of a record file

src/traffic.cpp:137-165.
-/
namespace OP.Traffic

/-- Looking for the first vehicle (src/traffic.cpp:154-158): the buffer and the file at the end. -/
def toVehicle : Nat → File → List Int → List Int × File
  | 0, f, b => (b, f)
  | k + 1, f, b =>
    if f.eof then (b, f) else
    let (b, f) := fgetln 256 f
    if starts 49 51 b then (b, f) else toVehicle k f b

/-- `GetRSADate` (src/traffic.cpp:140-165); `none` is no name or a file that cannot be opened.  `buf` has any contents at
first; every round but the last reads a character. -/
def getRSADate (mktime : Int × Int × Int → Int) (buf : List Int) : Option (List Int) → Res Int
  | none => .ok (-1)
  | some bytes =>
    let f := toData (bytes.length + 2) { rest := bytes }
    let (b, f) := toVehicle (f.rest.length + 2) f buf
    if f.eof then .ok (-1) else str2time mktime (some (b.drop 5))

end OP.Traffic
