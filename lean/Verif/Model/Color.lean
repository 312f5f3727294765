import Verif.Model.Readme
/-!
# The color example

README.md:390-431 and examples/color/color.go (the same grammar).
-/

namespace Joeson
open RuleText

/-- color.go:16-19 `Color` -/
def colorAst (r g b : Int) : Ast := .user 2 [.int r, .int g, .int b]

/-- color.go:25-28 `hslToRgb`: a constant -/
def hslToRgb (_h _s _l : Int) : List Int := [12, 23, 34]

/-- color.go:30-36 `toArrayInt`; the type assertion of line 32 may fail, `NativeIntFrom` may panic -/
def toArrayInt (u : UserString) : Ast → Except Panic (List Int)
  | .arr l => l.mapM (newNativeIntFrom u)
  | _ => .error .assertion

/-- color.go:45-48: the callback of `Rgb` -/
def rgbCb (u : UserString) (it : Ast) : Except Panic Ast := do
  match ← toArrayInt u it with
  | r :: g :: b :: _ => .ok (colorAst r g b)
  | _ => .error .indexOutOfRange

/-- color.go:49-53: the callback of `Hsl` -/
def hslCb (u : UserString) (it : Ast) : Except Panic Ast := do
  match ← toArrayInt u it with
  | h :: s :: l :: _ => match hslToRgb h s l with
    | r :: g :: b :: _ => .ok (colorAst r g b)
    | _ => .error .indexOutOfRange
  | _ => .error .indexOutOfRange

/-- The values, with the callbacks 0 to 2: of the names, 3: of `Rgb`, 4: of `Hsl`, 5: `NativeIntFrom` (color.go:42-56). -/
def colorOps (u : UserString) : PureOps Ast := treePure fun c v _ =>
  (match c with
  | 0 => Except.ok (colorAst 255 0 0)
  | 1 => Except.ok (colorAst 0 255 0)
  | 2 => Except.ok (colorAst 0 0 255)
  | 3 => rgbCb u v
  | 4 => hslCb u v
  | _ => nativeIntFrom u v).map some

/-- `'...'` alone -/
def colorNameE (s : String) : Expr := .single (.one [] none (.prim (quoteP s))) []

/-- `'rgb' _ '(' _ Integer*_COMMA{3,3} _ ')'`: color.go:45 -/
def rgbE : Expr :=
  .single (.cons [] none (.prim (quoteP "rgb")) (.cons [0x20] none (.prim (.ref (asc "_"))) (.cons [0x20] none (.prim (quoteP "("))
    (.cons [0x20] none (.prim (.ref (asc "_"))) (.cons [0x20] none (.starJoin (.ref (asc "Integer")) (.ref (asc "_COMMA")) (some ⟨[], some (asc "3"), [], [], some (asc "3"), []⟩))
    (.cons [0x20] none (.prim (.ref (asc "_"))) (.one [0x20] none (.prim (quoteP ")"))))))))) []

/-- `'hsl' _ '(' HslTrio ')'`: color.go:49 -/
def hslE : Expr :=
  .single (.cons [] none (.prim (quoteP "hsl")) (.cons [0x20] none (.prim (.ref (asc "_"))) (.cons [0x20] none (.prim (quoteP "("))
    (.cons [0x20] none (.prim (.ref (asc "HslTrio"))) (.one [0x20] none (.prim (quoteP ")"))))))) []

/-- `_ Integer _ ',' _ Integer '%' _ ',' _ Integer '%' _`: color.go:54 -/
def trioE : Expr :=
  .single (.cons [] none (.prim (.ref (asc "_"))) (.cons [0x20] none (.prim (.ref (asc "Integer"))) (.cons [0x20] none (.prim (.ref (asc "_")))
    (.cons [0x20] none (.prim (quoteP ",")) (.cons [0x20] none (.prim (.ref (asc "_"))) (.cons [0x20] none (.prim (.ref (asc "Integer")))
    (.cons [0x20] none (.prim (quoteP "%")) (.cons [0x20] none (.prim (.ref (asc "_"))) (.cons [0x20] none (.prim (quoteP ","))
    (.cons [0x20] none (.prim (.ref (asc "_"))) (.cons [0x20] none (.prim (.ref (asc "Integer"))) (.cons [0x20] none (.prim (quoteP "%"))
    (.one [0x20] none (.prim (.ref (asc "_")))))))))))))))) []

/-- `[ ,]*`: color.go:57 -/
def commaE (r : Regex) : Expr := .single (.one [] none (.star (.cls (charsOf " ,") r) none)) []

/-- color.go:41-59, README.md:409-427; `r1`, `r2`, `rc`, `rb`: the compiled `[1-9]`, `[0-9]`, `[ ,]` and `[ \t]` -/
def colorLines (r1 r2 rc rb : Regex) : List GLine :=
  [.alt "Color" none (.rank [
     .alt "" (some 0) (.text (colorNameE "red")),
     .alt "" (some 1) (.text (colorNameE "green")),
     .alt "" (some 2) (.text (colorNameE "blue")),
     .alt "Rgb" (some 3) (.text rgbE),
     .alt "Hsl" (some 4) (.text hslE),
     .incl "HslTrio" none (.text trioE)]),
   .incl "Integer" (some 5) (.text (gameIdE r1 r2)),
   .incl "_COMMA" none (.text (commaE rc)),
   .incl "_" none (.text (gapE rb))]

end Joeson
