import Verif.Model.Problem

/-!
# Reading a problem (minimip/utils/reader.cc)

The MPS parser and the protocol buffers are external: a model is the content of the
`MPModelProto` message, with finite coefficients.
-/

namespace MiniMip

/-- `MPVariableProto` (external), the fields a linear model needs. -/
structure ProtoVariable where
  name : String := ""
  objective : ℚ := 0
  lower : Dbl := .ninf
  upper : Dbl := .pinf
  isInteger : Bool := false
  deriving Repr, DecidableEq

/-- `MPConstraintProto` (external). -/
structure ProtoConstraint where
  name : String := ""
  varIndex : List Int := []
  coefficient : List ℚ := []
  lower : Dbl := .ninf
  upper : Dbl := .pinf
  deriving Repr, DecidableEq

/-- `PartialVariableAssignment` (external). -/
structure ProtoHint where
  varIndex : List Int := []
  varValue : List ℚ := []
  deriving Repr, DecidableEq

/-- `MPModelProto` (external); `generalConstraints` and `annotations` are the numbers of these. -/
structure ModelProto where
  name : String := ""
  maximize : Bool := false
  offset : ℚ := 0
  vars : List ProtoVariable := []
  constraints : List ProtoConstraint := []
  hint : Option ProtoHint := none
  generalConstraints : Nat := 0
  quadraticObjective : Bool := false
  annotations : Nat := 0
  deriving Repr, DecidableEq

namespace Reader

/-- `MPModelProtoToMiniMipProblem` (reader.cc:22-81). -/
def convert (m : ModelProto) : Outcome Problem :=
  if m.generalConstraints ≠ 0 then .error "MiniMIP only supports linear constraints."
  else if m.quadraticObjective then .error "MiniMIP only supports linear objectives."
  else if m.annotations ≠ 0 then .error "MiniMIP doesn't support annotations."
  else
    let p : Problem :=
      { name := m.name
        isMaximization := m.maximize
        offset := m.offset
        vars := m.vars.map fun v => ⟨v.name, v.objective, v.lower, v.upper, v.isInteger⟩
        constraints := m.constraints.map fun c => ⟨c.name, c.varIndex, c.coefficient, c.lower, c.upper⟩
        hints := match m.hint with
          | none => []
          | some h => [⟨h.varIndex, h.varValue⟩] }
    let e := p.findError
    if e ≠ "" then .error ("MiniMipProblem converted from MPModelProto was invalid: " ++ e)
    else .ok p

/-- `std::string::npos`: the largest `size_t`. -/
def npos : Nat := 2 ^ 64 - 1

/-- `std::string::rfind` (external): the start of the last occurrence, `npos` if there is none. -/
def rfind (pattern s : List Char) : Nat :=
  match (List.range (s.length + 1)).reverse.find? fun i => pattern.isPrefixOf (s.drop i) with
  | some i => i
  | none => npos

/-- `.mps`. -/
def extension : List Char := ['.', 'm', 'p', 's']

/-- `file_path.rfind(".mps") != file_path.length() - 4` (reader.cc:93); the subtraction is one of
`size_t` and wraps around. -/
def wrongFormat (path : List Char) : Bool :=
  rfind extension path ≠ (path.length + 2 ^ 64 - 4) % 2 ^ 64

/-- `ReadMipProblemFromMPSFile` (reader.cc:83-101).  `good` is whether the file can be opened,
`parsed` is `MpsFileToMPModelProto`, `none` if it returns an error. -/
def readMipProblemFromMPSFile (path : List Char) (good : Bool) (parsed : Option ModelProto) :
    Outcome Problem :=
  if !good then .error "File not found"
  else if wrongFormat path then .error "Wrong File format."
  else match parsed with
    | none => .error "MPS error"
    | some m => convert m

/-- `ReadMipProblemFromString` (reader.cc:103-112). -/
def readMipProblemFromString (parsed : Option ModelProto) : Outcome Problem :=
  match parsed with
  | none => .error "MPS error"
  | some m => convert m

end Reader
end MiniMip
