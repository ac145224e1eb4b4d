import Verif.Model.PlotSession

/-!
# What a plotting session should do, stated without the programs
-/

namespace Igakit

namespace Spec

/-- the backend behind a name -/
def backendOf (name : String) : Option Backend :=
  if name ∈ ["mpl", "matplotlib"] then some .mpl
  else if name ∈ ["myv", "mayavi"] then some .myv
  else if name ∈ ["nul", "null", "none"] then some .nul
  else none

/-- number of points at which a curve is drawn -/
def curvePoints (b : Backend) : ℕ := if b = .mpl then 128 else if b = .myv then 256 else 64

/-- number of points in each direction at which a surface is drawn -/
def surfPoints (b : Backend) : ℕ := if b = .mpl then 16 else if b = .myv then 128 else 32

/-- all options except the named ones are the user's -/
def Others (keys : List String) (kw o : Opts) : Prop := ∀ k, k ∉ keys → o k = kw k

/-- the user's colour, or a default -/
def colorOr (c : Val) (kw : Opts) : Option Val :=
  match kw "color" with
  | some v => some v
  | none => some c

/-- the user's colour, or yellow, or no colour at all if the user says `None` -/
def colorOrYellow (kw : Opts) : Option Val :=
  match kw "color" with
  | some .none => none
  | some v => some v
  | none => some (.tup [1, 1, 0])

/-- the user's mode, or a default -/
def modeOr (m : String) (kw : Opts) : Val :=
  match kw "mode" with
  | some v => v
  | none => .str m

/-- the two modes of lines -/
def LineMode (m : Val) : Prop := m = .str "line" ∨ m = .str "tube"

instance (m : Val) : Decidable (LineMode m) := by unfold LineMode; infer_instance

/-- options of points: mode and colour by default -/
structure PointOpts (c : Option Val) (m : String) (kw o : Opts) : Prop where
  mode : o "mode" = some (modeOr m kw)
  color : o "color" = match c with
    | some c => colorOr c kw
    | none => kw "color"
  others : Others ["mode", "color"] kw o

/-- options of lines: the mode is replaced by a representation, and a line has no tube -/
structure WireOpts (c : Option Val) (m : Val) (kw o : Opts) : Prop where
  mode : o "mode" = none
  color : o "color" = c
  repr : o "representation" = some (.str (if m = .str "line" then "wireframe" else "surface"))
  tube : o "tube_radius" = if m = .str "line" then some .none else kw "tube_radius"
  others : Others ["mode", "color", "representation", "tube_radius"] kw o

/-- options of surfaces -/
structure SurfOpts (c : Option Val) (kw o : Opts) : Prop where
  color : o "color" = c
  repr : o "representation" = some (.str "surface")
  others : Others ["color", "representation"] kw o

/-- the functions of the backends never raise an exception -/
def Quiet {K : Type} (W : World K) : Prop := ∀ l e, W.fn l e = none

/-- the session in which backend `b` has seen some more from plotter `i`, and nothing else has changed -/
def saw {K : Type} (s : Sess K) (i : ℕ) (b : Backend) (ws : List (What K)) : Sess K :=
  { s with log := s.log ++ ws.map (fun w => ⟨i, b, w⟩) }

/-- what follows a call of `points3d`: mayavi's glyphs are made smaller unless the user gives a factor -/
def shrink {K : Type} (b : Backend) (kw : Opts) (den : ℕ) : List (What K) :=
  if b = .myv ∧ kw "scale_factor" = none then [.rescale den] else []

/-- the operation selects a backend for plotter `i` -/
def Selects {K : Type} (i : ℕ) (op : Session.Op K) : Prop := ∃ name, op = .use i name

end Spec

end Igakit
