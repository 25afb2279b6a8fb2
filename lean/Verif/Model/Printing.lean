import Verif.Model.Excitation
import Verif.Model.FieldObj

/-!
# What `str` shows

Texts are lists of characters, the text of a name is `String.toList`. Values (numbers, functions) are printed by Python; the text of a value is a parameter.
-/
namespace Traceon
namespace Printing

/-- `str` of a non-negative integer, as in mesher.py:552-554 -/
def dec (n : Nat) : List Char := Nat.toDigits 10 n

/-- `', '.join(names)`, mesher.py:547 and 549 -/
def joinNames (names : List String) : List Char := [',', ' '].intercalate (names.map String.toList)

/-- `', '.join([str(len(...)) for n in ...])`, mesher.py:548 and 550 -/
def joinSizes (groups : List (String × List Nat)) : List Char := [',', ' '].intercalate (groups.map fun g => dec g.2.length)

/-- mesher.py:546-559, `Mesh.__str__` -/
def meshText {P : Type} (m : Mesh P) : List Char :=
  "<Traceon Mesh,\n".toList ++
  "\tNumber of points: ".toList ++ dec m.points.length ++ '\n' ::
  "\tNumber of lines: ".toList ++ dec m.lines.length ++ '\n' ::
  "\tNumber of triangles: ".toList ++ dec m.triangles.length ++ '\n' ::
  "\tPhysical lines: ".toList ++ joinNames m.physLines.keys ++ '\n' ::
  "\tElements in physical line groups: ".toList ++ joinSizes m.physLines ++ '\n' ::
  "\tPhysical triangles: ".toList ++ joinNames m.physTris.keys ++ '\n' ::
  "\tElements in physical triangle groups: ".toList ++ joinSizes m.physTris ++ ['>']

/-- excitation.py:62-76, `ExcitationType.__str__` -/
def typeName : ExcType → String
  | .voltageFixed => "voltage fixed"
  | .voltageFun => "voltage function"
  | .dielectric => "dielectric"
  | .current => "current"
  | .magnetostaticPot => "magnetostatic potential"
  | .magnetizable => "magnetizable"

/-- excitation.py:94, the text of the type -/
def typeText (t : ExcType) : List Char := (typeName t).toList

/-- The text of one excitation, excitation.py:94 -/
def entryText {V P : Type} (showVal : ExcVal V P → List Char) (e : String × (ExcType × ExcVal V P)) : List Char :=
  e.1.toList ++ '=' :: showVal e.2.2 ++ ' ' :: '(' :: typeText e.2.1 ++ [')']

/-- excitation.py:92-95, `Excitation.__str__` -/
def excitationText {V P : Type} (showVal : ExcVal V P → List Char) (x : Excitation V P) : List Char :=
  "<Traceon Excitation,\n\t".toList ++ ['\n', '\t'].intercalate (x.types.map (entryText showVal)) ++ ['>']

/-- excitation.py:30-34 `Symmetry.__str__` -/
def symmetryText : Symmetry → List Char
  | .radial => "radial".toList
  | .threeD => "3d".toList

/-- solver.py:648-653 `FieldBEM.__str__`; `name` is the name of the class and the numbers are those of the three kinds of charges -/
def fieldText (name : String) (elec mag cur : Nat) : List Char :=
  "<Traceon ".toList ++ name.toList ++ '\n' ::
  "\tNumber of electrostatic points: ".toList ++ dec elec ++ '\n' ::
  "\tNumber of magnetizable points: ".toList ++ dec mag ++ '\n' ::
  "\tNumber of current rings: ".toList ++ dec cur ++ ['>']

end Printing
end Traceon
