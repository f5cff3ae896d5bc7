import Verif.F32.Basic
open Verif
def lcg (s : UInt64) : UInt64 := s * 6364136223846793005 + 1442695040888963407
def mk (b : UInt32) : F32 := ⟨BitVec.ofNat 32 b.toNat⟩
def same (x : F32) (y : Float32) : Bool := (x.isNaN && y.isNaN) || x.bits.toNat == y.toBits.toNat
def specials : Array UInt32 := #[0,0x80000000,1,0x80000001,0x7f800000,0xff800000,0x7fc00000,0x007fffff,0x00800000,0x7f7fffff,0x3f800000,0xbf800000,0x00ffffff,0x3effffff,0x4b000000,0x4b7fffff,0x4b800001]
def check (a b : UInt32) : List String :=
  let x := mk a; let y := mk b; let fx := Float32.ofBits a; let fy := Float32.ofBits b
  (if same (x+y) (fx+fy) then [] else [s!"add {a} {b}"]) ++ (if same (x-y) (fx-fy) then [] else [s!"sub {a} {b}"]) ++
  (if same (x*y) (fx*fy) then [] else [s!"mul {a} {b}"]) ++ (if same (x/y) (fx/fy) then [] else [s!"div {a} {b}"]) ++
  (if F32.lt x y == (fx < fy) then [] else [s!"lt {a} {b}"]) ++ (if F32.le x y == (fx ≤ fy) then [] else [s!"le {a} {b}"]) ++
  (if F32.feq x y == (fx == fy) then [] else [s!"eq {a} {b}"]) ++ (if same (-x) (-fx) then [] else [s!"neg {a}"]) ++
  (if same x.abs fx.abs then [] else [s!"abs {a}"]) ++
  (if F32.toIntSat 0 (2^32-1) x == fx.toUInt32.toNat then [] else [s!"u32 {a}"]) ++
  (if F32.toIntSat (-2^31) (2^31-1) x == fx.toInt32.toInt then [] else [s!"i32 {a}"]) ++
  (if F32.toIntSat (-2^15) (2^15-1) x == fx.toInt16.toInt then [] else [s!"i16 {a}"]) ++
  (if same (F32.ofInt a.toNat) a.toFloat32 then [] else [s!"ofu32 {a}"]) ++
  (if same (F32.ofInt a.toInt32.toInt) a.toInt32.toFloat32 then [] else [s!"ofi32 {a}"])
#eval show IO Unit from do
  let mut bad := 0
  let mut n := 0
  for a in specials do for b in specials do
    n := n+1
    for m in check a b do bad := bad+1; IO.println m
  let mut s : UInt64 := 12345
  for i in [0:1000000] do
    s := lcg s; let a := (s >>> 32).toUInt32
    s := lcg s; let r := (s >>> 32).toUInt32
    -- half the pairs share nearby exponents
    let b := if i % 2 == 0 then r else (a &&& 0x7f800000) + (r &&& 0x80ffffff)
    n := n+1
    for m in check a b do bad := bad+1; if bad < 20 then IO.println m
  IO.println s!"{n} pairs, {bad} differences"
