import Verif.Model.Native
import Verif.Spec.Seen
import Verif.Spec.Lang
/-!
# The VideoGame grammars of the README

The callbacks of README.md:293-360, as written out in examples/tests_from_readme/readme_02alternation_test.go (example 5 is also
examples/videogamedb/videogame_test.go:20-106), on trees as
values. The database is a parameter.
-/

namespace Joeson

/-- readme_02alternation_test.go:10-17 `VideoGame` -/
structure VideoGame where
  id : Int
  title : Bytes
  year : Int
  developer : Bytes
  score : Int
deriving Repr, DecidableEq

/-- As a value of a user type. -/
def VideoGame.ast (v : VideoGame) : Ast := .user 1 [.int v.id, .str v.title, .int v.year, .str v.developer, .int v.score]

/-- readme_02alternation_test.go:19-24 `db` -/
def readmeDb : List VideoGame :=
  [⟨1, asc "Civilization", 1991, asc "Sid Meier", 95⟩,
   ⟨3, asc "Rogue", 1980, asc "Michael Toy, Glenn Wichman, Ken Arnold", 80⟩,
   ⟨4, asc "Doom", 1993, asc "John Carmack", 90⟩,
   ⟨5, asc "Tetris", 1984, asc "Alexey Pajitnov", 90⟩]

/-- readme_02alternation_test.go:25 `notfound` -/
def notFoundGame : VideoGame := ⟨0, asc "Not found", -1, [], 0⟩

/-- The loop of the three functions below: the first game of the database for which `p` holds, or `notfound`. -/
def findGame (p : VideoGame → Bool) : List VideoGame → VideoGame
  | [] => notFoundGame
  | v :: l => if p v then v else findGame p l

/-- `j.NewNativeIntFrom(it).Int()`: native_int.go:27-29 -/
def newNativeIntFrom (u : UserString) (it : Ast) : Except Panic Int := do
  match ← nativeIntFrom u it with
  | .int n => .ok n
  | _ => .error .badType

/-- `j.NewNativeStringFrom(it).String()`: native_string.go:22-24 -/
def newNativeStringFrom (u : UserString) (it : Ast) : Except Panic Bytes := do
  match ← nativeStringFrom u it with
  | .str s => .ok s
  | _ => .error .badType

/-- readme_02alternation_test.go:38-46 `findVideoGameById` -/
def findVideoGameById (u : UserString) (db : List VideoGame) (it : Ast) : Except Panic Ast := do
  let id ← newNativeIntFrom u it
  return (findGame (fun v => v.id == id) db).ast

/-- readme_02alternation_test.go:48-56 `findVideoGameByTitle` -/
def findVideoGameByTitle (u : UserString) (db : List VideoGame) (it : Ast) : Except Panic Ast := do
  let title ← newNativeStringFrom u it
  return (findGame (fun v => v.title == title) db).ast

/-- readme_02alternation_test.go:58-67 `findBestVideoGameOfYear` -/
def findBestVideoGameOfYear (u : UserString) (db : List VideoGame) (it : Ast) : Except Panic Ast := do
  let year ← newNativeIntFrom u it
  return (findGame (fun v => v.year == year) db).ast

/-- readme_02alternation_test.go:69-78 `makeVideoGame`: a failed type assertion, or the `panic("assert")` at the end -/
def makeVideoGame (u : UserString) (db : List VideoGame) (it : Ast) : Except Panic Ast :=
  match it with
  | .map kvs => match kvs.lookup "id" with
    | some id => findVideoGameById u db id
    | none => match kvs.lookup "title" with
      | some title => findVideoGameByTitle u db title
      | none => .error .assertion
  | _ => .error .assertion

/-- `it.(*j.NativeMap).Concat()`: readme_02alternation_test.go:108-110 -/
def concatOfMap (u : UserString) : Ast → Except Panic Ast
  | .map kvs => (Ast.concatMap u kvs).map .str
  | _ => .error .assertion

/-- The values, with the callbacks 0: `makeVideoGame`, 1: `findVideoGameById`, 2: `findVideoGameByTitle`,
3: `findBestVideoGameOfYear`, 4: the one of `Year`. -/
def gameOps (u : UserString) (db : List VideoGame) : PureOps Ast := treePure fun c v _ =>
  (match c with
  | 0 => makeVideoGame u db v
  | 1 => findVideoGameById u db v
  | 2 => findVideoGameByTitle u db v
  | 3 => findBestVideoGameOfYear u db v
  | _ => concatOfMap u v).map some

open RuleText

/-- Characters that need no escape. -/
def charsOf (s : String) : List Piece := s.toList.map fun c => ⟨false, c.toNat⟩

/-- `'...'` -/
def quoteP (s : String) : Prim := .str (charsOf s)

/-- `[1-9][0-9]*`, for compiled `r1` and `r2`: readme_02alternation_test.go:93 -/
def gameIdE (r1 r2 : Regex) : Expr :=
  .single (.cons [] none (.prim (.cls (charsOf "1-9") r1)) (.one [] none (.star (.cls (charsOf "0-9") r2) none))) []

/-- `'"' [^"]* '"'`: readme_02alternation_test.go:94 -/
def gameTitleE (r : Regex) : Expr :=
  .single (.cons [] none (.prim (quoteP "\"")) (.cons [0x20] none (.star (.cls (charsOf "^\"") r) none) (.one [0x20] none (.prim (quoteP "\""))))) []

/-- `id:[1-9][0-9]* | '"' title:([^"]*) '"'`: readme_02alternation_test.go:83 -/
def gameE (r1 r2 r : Regex) : Expr :=
  .choice [] (.cons [] (some (asc "id")) (.prim (.cls (charsOf "1-9") r1)) (.one [] none (.star (.cls (charsOf "0-9") r2) none))) [0x20]
    (.one (.cons [0x20] none (.prim (quoteP "\"")) (.cons [0x20] (some (asc "title"))
      (.prim (.group (.single (.one [] none (.star (.cls (charsOf "^\"") r) none)) []))) (.one [0x20] none (.prim (quoteP "\"")))))) [] []

/-- `'bestIn:' _ Year`: readme_02alternation_test.go:107 -/
def bestInE : Expr :=
  .single (.cons [] none (.prim (quoteP "bestIn:")) (.cons [0x20] none (.prim (.ref (asc "_"))) (.one [0x20] none (.prim (.ref (asc "Year")))))) []

/-- `a:('19'|'20'|'21') b:[0-9] c:[0-9]`: readme_02alternation_test.go:108 -/
def yearE (r2 : Regex) : Expr :=
  .single (.cons [] (some (asc "a")) (.prim (.group (.choice [] (.one [] none (.prim (quoteP "19"))) [] (.cons (.one [] none (.prim (quoteP "20"))) []
      (.one (.one [] none (.prim (quoteP "21"))))) [] [])))
    (.cons [0x20] (some (asc "b")) (.prim (.cls (charsOf "0-9") r2)) (.one [0x20] (some (asc "c")) (.prim (.cls (charsOf "0-9") r2))))) []

/-- `[ \t]*`: readme_02alternation_test.go:112 -/
def gapE (r : Regex) : Expr := .single (.one [] none (.star (.cls [⟨false, 0x20⟩, ⟨true, 0x74⟩] r) none)) []

/-- readme_02alternation_test.go:82-84, README.md:295-297 -/
def readme1 (r1 r2 r : Regex) : List GLine := [.alt "VideoGame" (some 0) (.text (gameE r1 r2 r))]

/-- readme_02alternation_test.go:85-96, README.md:329-350 (examples 2 and 3: the callbacks do the same) -/
def readme3 (r1 r2 r : Regex) : List GLine :=
  [.alt "VideoGame" none (.rank [.alt "" (some 1) (.text (gameIdE r1 r2)), .alt "" (some 2) (.text (gameTitleE r))])]

/-- readme_02alternation_test.go:97-102, README.md:353-359 -/
def readme4 (r1 r2 r : Regex) : List GLine :=
  [.alt "VideoGame" none (.rank [.alt "VideoGameId" (some 1) (.text (gameIdE r1 r2)), .alt "VideoGameTitle" (some 2) (.text (gameTitleE r))])]

/-- readme_02alternation_test.go:103-113, README.md:364-375 -/
def readme5 (r1 r2 r rb : Regex) : List GLine :=
  [.alt "VideoGame" none (.rank [
     .alt "VideoGameId" (some 1) (.text (gameIdE r1 r2)),
     .alt "VideoGameTitle" (some 2) (.text (gameTitleE r)),
     .alt "VideoGameBestOfYear" (some 3) (.text bestInE),
     .incl "Year" (some 4) (.text (yearE r2))]),
   .incl "_" none (.text (gapE rb))]

end Joeson
