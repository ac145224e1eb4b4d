import Verif.Model.Plot

/-!
# Model of a plotting session: which backend gets which calls with which options

/repo/igakit/plot.py:3-331 (the whole file), the functions `points3d`, `line3d`, `surf3d` and the tables `_resolution` of plot_mpl.py,
plot_myv.py and plot_nul.py, as far as options are concerned.

Where `Model.Plot` computes the arrays, this file models the programs around them: selection and import of the backend (class
attributes `_modules`, `_alias`, `_backend`, the property `backend`), the options handed on, the sequence of calls received by the
backends, and the state left behind by exceptions.

* The state survives an exception: a computation maps a state to an outcome and a state.
* `__import__` and the functions of the backends belong to other libraries: `World` says what they do, as a function of everything
  that happened before.
* A module is identified with its name; Python's `sys.modules` makes a second successful import return the same object.
* Keyword arguments are strings, colours and opaque objects; the names of positional parameters (`x`, `lines`, ...) are not options.
* Returned handles are not modelled except that mayavi's `points3d` returns one with `glyph.glyph.scale_factor` and the functions of
  the other two return `None`.
-/

namespace Igakit

/-- the modules `igakit.plot_mpl`, `igakit.plot_myv`, `igakit.plot_nul`, plot.py:285-289 -/
inductive Backend where
  | mpl
  | myv
  | nul
  deriving DecidableEq, Repr

/-- exceptions: those of the geometry, ImportError, AttributeError, others (of a library), and use of a plotter that does not exist
(plot.py:306-310) -/
inductive PErr where
  | py (e : Err)
  | importErr
  | attrErr
  | other (n : ℕ)
  | name

/-- outcome of `__import__` (plot.py:309) -/
inductive Imp where
  | ok
  | importErr
  | other (n : ℕ)
  deriving DecidableEq

/-- values of keyword arguments (plot.py:71-81) -/
inductive Val where
  | none
  | str (s : String)
  | tup (l : List ℤ)
  | obj (n : ℕ)
  deriving DecidableEq

/-- a dictionary of keyword arguments (plot.py:70) -/
abbrev Opts := String → Option Val

/-- `d[k] = v` (plot.py:97, 203) -/
def Opts.put (o : Opts) (k : String) (v : Val) : Opts := Function.update o k (some v)

/-- removal of a key, as in `d.pop(k, None)` (plot.py:91, 201) -/
def Opts.del (o : Opts) (k : String) : Opts := Function.update o k Option.none

/-- `if k not in d: d[k] = v` (plot.py:173-174) -/
def Opts.default (o : Opts) (k : String) (v : Val) : Opts :=
  match o k with
  | some _ => o
  | Option.none => o.put k v

/-- what a function of the backend receives (plot_mpl.py:37-119, plot_myv.py:1-187, plot_nul.py:1-43) -/
inductive Data (K : Type) where
  | points (l : Xyz K)
  | quiver (l v : Xyz K)
  | lines (ls : List (Xyz K))
  | surfs (ls : List (Xyz K))

/-- events at a backend: a call, or `scale_factor *= 1/den` on the handle just returned (plot.py:77-81) -/
inductive What (K : Type) where
  | call (dat : Data K) (o : Opts)
  | rescale (den : ℕ)

/-- an event, the plotter that caused it and the backend that saw it (plot.py:76) -/
structure Ev (K : Type) where
  who : ℕ
  at_ : Backend
  what : What K

/-- `_modules` (shared by all plotters), the outcomes of `__import__` so far, the number of plotters, `_backend` of each of them,
and the events so far (plot.py:285-289, 296-311) -/
structure Sess (K : Type) where
  loaded : Backend → Bool
  tries : List (Backend × Imp)
  count : ℕ
  cur : ℕ → Option Backend
  log : List (Ev K)

/-- what the other libraries do (plot.py:309 and the calls of plot_mpl.py:57, 75, 79, 91, 118) -/
structure World (K : Type) where
  imp : List (Backend × Imp) → Backend → Imp
  fn : List (Ev K) → Ev K → Option PErr

/-- a computation in a session (plot.py:5-326) -/
def SM (K α : Type) : Type := Sess K → Except PErr α × Sess K

namespace SM

variable {K α β : Type}

/-- sequencing; an exception keeps the state reached (plot.py:5-326) -/
def bind (m : SM K α) (f : α → SM K β) : SM K β := fun s =>
  match m s with
  | (.ok a, s') => f a s'
  | (.error e, s') => (.error e, s')

instance : Monad (SM K) where
  pure a := fun s => (.ok a, s)
  bind := SM.bind

/-- `raise` (plot.py:306-310) -/
def raise (e : PErr) : SM K α := fun s => (.error e, s)

/-- a computation of `Model.Plot` (plot.py:66-76) -/
def lift (r : Res α) : SM K α := fun s =>
  match r with
  | .ok a => (.ok a, s)
  | .error e => (.error (.py e), s)

/-- a loop with the number of the round (plot.py:163-170) -/
def each (f : ℕ → α → SM K β) : ℕ → List α → SM K (List β)
  | _, [] => pure []
  | k, x :: l => do
    let y ← f k x
    let ys ← each f (k + 1) l
    pure (y :: ys)

end SM

namespace Session

variable {K : Type}

/-! ## the backend -/

/-- `_alias`, plot.py:290-295 -/
def aliasOf : String → Option String
  | "matplotlib" => some "mpl"
  | "mayavi" => some "myv"
  | "null" => some "nul"
  | "none" => some "nul"
  | _ => none

/-- keys of `_modules`, plot.py:285-289 -/
def moduleKey : String → Option Backend
  | "mpl" => some .mpl
  | "myv" => some .myv
  | "nul" => some .nul
  | _ => none

/-- `__import__`, plot.py:308-310 -/
def load (W : World K) (b : Backend) : SM K Unit := fun s =>
  let r := W.imp s.tries b
  let s' := { s with tries := s.tries ++ [(b, r)] }
  match r with
  | .ok => (.ok (), { s' with loaded := Function.update s.loaded b true })
  | .importErr => (.error .importErr, s')
  | .other n => (.error (.other n), s')

/-- `module is None`, plot.py:304, 307 -/
def isNone (b : Backend) : SM K Bool := fun s => (.ok (!s.loaded b), s)

/-- `self._backend = module`, plot.py:311 -/
def assign (i : ℕ) (b : Backend) : SM K Unit := fun s => (.ok (), { s with cur := Function.update s.cur i (some b) })

/-- `set_backend`, plot.py:301-311 -/
def setBackend (W : World K) (i : ℕ) (backend : String) : SM K Unit :=
  let name := (aliasOf backend).getD backend
  match moduleKey name with
  | none => SM.raise (.py .value)
  | some b => do
    let missing ← isNone b
    if missing then load W b else pure ()
    assign i b

/-- `use`, plot.py:298-299 -/
def use (W : World K) (i : ℕ) (backend : String) : SM K Unit := setBackend W i backend

/-- `return self._backend`, plot.py:319; a use of `None` as a module is an AttributeError -/
def readBackend (i : ℕ) : SM K Backend := fun s =>
  match s.cur i with
  | some b => (.ok b, s)
  | none => (.error .attrErr, s)

/-- `get_backend`, plot.py:313-319 -/
def getBackend (W : World K) (i : ℕ) : SM K Backend := fun s =>
  match s.cur i with
  | some _ => readBackend i s
  | none =>
    match use W i "mayavi" s with
    | (.ok _, s1) => readBackend i s1
    | (.error .importErr, s1) =>
      match use W i "matplotlib" s1 with
      | (.ok _, s2) => readBackend i s2
      | (.error e, s2) => (.error e, s2)
    | (.error e, s1) => (.error e, s1)

/-- `_resolution[1]`, plot_mpl.py:133, plot_myv.py:258, plot_nul.py:43 -/
def res1 : Backend → ℕ
  | .mpl => 128
  | .myv => 256
  | .nul => 64

/-- `_resolution[2]`, plot_mpl.py:133, plot_myv.py:258, plot_nul.py:43 -/
def res2 : Backend → ℕ
  | .mpl => 16
  | .myv => 128
  | .nul => 32

/-- a function of a backend is called (plot.py:76) -/
def receive (W : World K) (ev : Ev K) : SM K Backend := fun s =>
  match W.fn s.log ev with
  | some e => (.error e, { s with log := s.log ++ [ev] })
  | none => (.ok ev.at_, { s with log := s.log ++ [ev] })

/-- a call of `self.backend.points3d`, `quiver3d`, `line3d`, `surf3d`: plot_mpl.py has no `quiver3d`; the call may raise what the
library raises (plot.py:22-61, 76, 100, 114, 153, 178) -/
def invoke (W : World K) (i : ℕ) (dat : Data K) (o : Opts) : SM K Backend := do
  let b ← getBackend W i
  match b, dat with
  | .mpl, .quiver _ _ => SM.raise .attrErr
  | _, _ => receive W ⟨i, b, .call dat o⟩

/-- `pts.glyph.glyph.scale_factor *= 1/den` if no `scale_factor` is given, plot.py:77-81, 115-119: AttributeError is ignored -/
def rescale (i : ℕ) (b : Backend) (o : Opts) (den : ℕ) : SM K Unit := fun s =>
  match o "scale_factor", b with
  | none, .myv => (.ok (), { s with log := s.log ++ [⟨i, b, .rescale den⟩] })
  | _, _ => (.ok (), s)

/-! ## the options -/

/-- `mode = options.pop('mode', dflt)` and what follows, plot.py:91-97, 144-150, 204-210 -/
def wireMode (o : Opts) (dflt : String) : Res Opts := do
  let mode := (o "mode").getD (.str dflt)
  let o := o.del "mode"
  pyAssert (mode = .str "line" ∨ mode = .str "tube")
  if mode = .str "line" then
    pure ((o.put "representation" (.str "wireframe")).put "tube_radius" .none)
  else if mode = .str "tube" then
    pure (o.put "representation" (.str "surface"))
  else pure o

/-- `color = options.pop('color', (1,1,0)); if color is not None: options['color'] = color`, plot.py:201-203, 236-238 -/
def yellow (o : Opts) : Opts :=
  let color := (o "color").getD (.tup [1, 1, 0])
  let o := o.del "color"
  if color ≠ .none then o.put "color" color else o

variable [Field K] [LinearOrder K] {d : ℕ}

/-! ## the methods -/

/-- `points`, plot.py:11-29 -/
def points (W : World K) (i : ℕ) (P : Nd K) (kw : Opts) : SM K Unit := do
  let l ← SM.lift (Plot.points P)
  let _ ← invoke W i (.points l) (kw.default "mode" (.str "sphere"))
  pure ()

/-- `quiver`, plot.py:31-62 -/
def quiver (W : World K) (i : ℕ) (P V : Nd K) (kw : Opts) : SM K Unit := do
  let l ← SM.lift (Plot.quiver P V)
  let _ ← invoke W i (.quiver l.1 l.2) (kw.default "mode" (.str "arrow"))
  pure ()

/-- `cpoint`, plot.py:66-82 -/
def cpoint (W : World K) (i : ℕ) (N : Nrb K d) (kw : Opts) : SM K Unit := do
  let l ← SM.lift (Plot.cpoint N)
  let o := (kw.default "color" (.tup [1, 0, 0])).default "mode" (.str "sphere")
  let b ← invoke W i (.points l) o
  rescale i b o 8

/-- `cwire`, plot.py:84-101 -/
def cwire (W : World K) (i : ℕ) (N : Nrb K d) (kw : Opts) : SM K Unit := do
  let ls ← SM.lift (Plot.cwire N)
  let o ← SM.lift (wireMode (kw.default "color" (.tup [0, 0, 1])) "line")
  let _ ← invoke W i (.lines ls) o
  pure ()

/-- `kpoint`, plot.py:103-120 -/
def kpoint (W : World K) (i : ℕ) (M : PlotMem K) (N : Nrb K d) (kw : Opts) : SM K Unit := do
  let l ← SM.lift (Plot.kpoint M N)
  let o := (kw.default "color" (.tup [0, 1, 0])).default "mode" (.str "cube")
  let b ← invoke W i (.points l) o
  rescale i b o 10

/-- `kwire`, plot.py:122-154: `uvw[axis]` comes before the backend, the rest of the round after it -/
def kwire (W : World K) (i : ℕ) (M : PlotMem K) (N : Nrb K d) (axes : Plot.AxesArg) (kw : Opts) : SM K Unit := do
  let uvw ← SM.lift (Plot.allBreaks N)
  let blocks ← SM.each (fun k axis => do
    let _ ← SM.lift (normAxis d axis)
    let b ← getBackend W i
    SM.lift (Plot.kwireAxis M (res1 b) N uvw k axis)) 0 (axes.list d)
  let o ← SM.lift (wireMode (kw.default "color" (.tup [0, 1, 0])) "line")
  let ls ← SM.lift (forEach (fun _ C => Plot.unpack3 C) 0 blocks.flatten)
  let _ ← invoke W i (.lines ls) o
  pure ()

/-- `ksurf`, plot.py:156-179 -/
def ksurf (W : World K) (i : ℕ) (eps : K) (M : PlotMem K) (N : Nrb K (d + 1)) (axes : Plot.AxesArg) (kw : Opts) : SM K Unit := do
  let blocks ← SM.each (fun k axis => do
    let us ← SM.lift (N.breaks axis)
    SM.each (fun j u => do
      let nrb ← SM.lift (N.extract eps (M.jr [k, j]) axis u)
      let b ← getBackend W i
      SM.lift (Plot.sampled M [k, j] (res2 b) nrb)) 0 us) 0 (axes.list (d + 1))
  let o := (kw.default "color" (.tup [0, 1, 0])).put "representation" (.str "surface")
  let ls ← SM.lift (forEach (fun _ C => Plot.unpack3 C) 0 blocks.flatten)
  let _ ← invoke W i (.surfs ls) o
  pure ()

/-- `curve`, plot.py:183-214 -/
def curve (W : World K) (i : ℕ) (eps : K) (M : PlotMem K) (kw : Opts) : {d : ℕ} → List ℕ → Nrb K d → SM K Unit
  | 0, _, _ => pure ()
  | 1, key, N => do
    let b ← getBackend W i
    let C ← SM.lift (Plot.sampled M key (res1 b) N)
    let l ← SM.lift (Plot.unpack3 C)
    let o ← SM.lift (wireMode (yellow kw) "tube")
    let _ ← invoke W i (.lines [l]) o
    pure ()
  | _ + 2, key, N => do
    let bs ← SM.lift (Plot.boundaries eps M key N)
    let _ ← SM.each (fun k nrb => curve W i eps M kw (k :: key) nrb) 0 bs
    pure ()

/-- the part of `surface` after the boundaries, plot.py:227-243 -/
def surfLoop (W : World K) (i : ℕ) (M : PlotMem K) (kw : Opts) (l : List (Nrb K d)) : SM K Unit := do
  let Cs ← SM.each (fun k nrb => do
    let b ← getBackend W i
    SM.lift (Plot.sampled M [k] (res2 b) nrb)) 0 l
  let o := (yellow kw).put "representation" (.str "surface")
  let ls ← SM.lift (forEach (fun _ C => Plot.unpack3 C) 0 Cs)
  let _ ← invoke W i (.surfs ls) o
  pure ()

/-- `surface`, plot.py:216-243 -/
def surface (W : World K) (i : ℕ) (eps : K) (M : PlotMem K) (kw : Opts) : {d : ℕ} → Nrb K d → SM K Unit
  | 0, _ => pure ()
  | 1, _ => pure ()
  | 2, N => surfLoop W i M kw [N]
  | _ + 3, N => do
    let bs ← SM.lift (Plot.boundaries eps M [] N)
    surfLoop W i M kw bs

/-- `volume`, plot.py:245-253: the options computed in lines 248-251 are not used -/
def volume (W : World K) (i : ℕ) (eps : K) (M : PlotMem K) (N : Nrb K d) (kw : Opts) : SM K Unit :=
  if d < 3 then pure () else surface W i eps M kw N

/-- `cplot`, plot.py:257-262 -/
def cplot (W : World K) (i : ℕ) (N : Nrb K d) (kw : Opts) : SM K Unit := do
  cpoint W i N kw
  cwire W i N kw

/-- `kplot`, plot.py:264-269; `kwire` has its own parameter `axes`, which is not among the options here -/
def kplot (W : World K) (i : ℕ) (M M' : PlotMem K) (N : Nrb K d) (kw : Opts) : SM K Unit := do
  kpoint W i M N kw
  kwire W i M' N .none kw

/-- `plot`, plot.py:271-278 -/
def plot (W : World K) (i : ℕ) (eps : K) (M : PlotMem K) (N : Nrb K d) (kw : Opts) : SM K Unit :=
  if d = 1 then curve W i eps M kw [] N
  else if d = 2 then surface W i eps M kw N
  else if d = 3 then volume W i eps M N kw
  else pure ()

/-- the drawing methods with their arguments; `eps`, `M` as in `Model.Plot` (plot.py:11-274) -/
inductive Meth (K : Type) where
  | points (P : Nd K)
  | quiver (P V : Nd K)
  | cpoint {d : ℕ} (N : Nrb K d)
  | cwire {d : ℕ} (N : Nrb K d)
  | kpoint {d : ℕ} (M : PlotMem K) (N : Nrb K d)
  | kwire {d : ℕ} (M : PlotMem K) (N : Nrb K d) (axes : Plot.AxesArg)
  | ksurf {d : ℕ} (eps : K) (M : PlotMem K) (N : Nrb K (d + 1)) (axes : Plot.AxesArg)
  | curve {d : ℕ} (eps : K) (M : PlotMem K) (N : Nrb K d)
  | surface {d : ℕ} (eps : K) (M : PlotMem K) (N : Nrb K d)
  | volume {d : ℕ} (eps : K) (M : PlotMem K) (N : Nrb K d)
  | cplot {d : ℕ} (N : Nrb K d)
  | kplot {d : ℕ} (M M' : PlotMem K) (N : Nrb K d)
  | plot {d : ℕ} (eps : K) (M : PlotMem K) (N : Nrb K d)

/-- a method call on plotter `i`, plot.py:11-278 -/
def draw (W : World K) (i : ℕ) (kw : Opts) : Meth K → SM K Unit
  | .points P => points W i P kw
  | .quiver P V => quiver W i P V kw
  | .cpoint N => cpoint W i N kw
  | .cwire N => cwire W i N kw
  | .kpoint M N => kpoint W i M N kw
  | .kwire M N axes => kwire W i M N axes kw
  | .ksurf eps M N axes => ksurf W i eps M N axes kw
  | .curve eps M N => curve W i eps M kw [] N
  | .surface eps M N => surface W i eps M kw N
  | .volume eps M N => volume W i eps M N kw
  | .cplot N => cplot W i N kw
  | .kplot M M' N => kplot W i M M' N kw
  | .plot eps M N => plot W i eps M N kw

/-! ## histories -/

/-- what a user does: `Plotter(backend)`, `use`, an attribute of the backend (`figure`, `show`, ..., `__getattr__`, plot.py:282-283),
a drawing method -/
inductive Op (K : Type) where
  | new (backend : Option String)
  | use (i : ℕ) (backend : String)
  | attr (i : ℕ)
  | draw (i : ℕ) (kw : Opts) (m : Meth K)

/-- `Plotter.__init__`, plot.py:5-7: the object exists for the user if nothing is raised -/
def new (W : World K) (backend : Option String) : SM K Unit := fun s =>
  match backend with
  | none => (.ok (), { s with count := s.count + 1 })
  | some name =>
    match use W s.count name s with
    | (.ok _, s') => (.ok (), { s' with count := s.count + 1 })
    | (.error e, s') => (.error e, s')

/-- one operation; plotters that do not exist cannot be used (plot.py:5-326) -/
def step (W : World K) : Op K → SM K Unit
  | .new backend => new W backend
  | .use i name => fun s => if i < s.count then use W i name s else (.error .name, s)
  | .attr i => fun s => if i < s.count then (do let _ ← getBackend W i; pure ()) s else (.error .name, s)
  | .draw i kw m => fun s => if i < s.count then draw W i kw m s else (.error .name, s)

/-- after `import igakit.plot`: one plotter, plot.py:326 -/
def start : Sess K := ⟨fun _ => false, [], 1, fun _ => none, []⟩

/-- a history; the user goes on after exceptions (plot.py:5-326) -/
def run (W : World K) : List (Op K) → Sess K → Sess K
  | [], s => s
  | op :: ops, s => run W ops (step W op s).2

/-! ## the options in plot_mpl.py -/

/-- `options.pop(k, None)` for the keys of a list (plot_mpl.py:38-57) -/
def dels (o : Opts) : List String → Opts
  | [] => o
  | k :: ks => dels (o.del k) ks

/-- what `ax.scatter` receives besides `s=30`, plot_mpl.py:38-57 -/
def mplScatter (kw : Opts) : Opts :=
  let o := dels kw ["name", "representation", "opacity", "colormap", "resolution", "scale_factor", "scale_mode", "line_width"]
  let m := (o "mode").getD (.str "sphere")
  let o := o.del "mode"
  let o := if m = .str "sphere" then o.put "marker" (.str "o") else o
  let o := if m = .str "cube" then o.put "marker" (.str "s") else o
  if m = .str "cone" then o.put "marker" (.str "^") else o

/-- `options` of `line3d`, handed to `ax.plot`, plot_mpl.py:60-75 -/
def mplLineOpts (kw : Opts) : Opts :=
  dels kw ["name", "representation", "opacity", "colormap", "resolution", "tube_radius", "tube_sides", "line_width"]

/-- what `ax.plot_wireframe` receives, plot_mpl.py:77-79, 81-86 -/
def mplWireOpts (kw : Opts) : Opts :=
  ((mplLineOpts kw).put "rstride" (.obj 1)).put "cstride" (.obj 1)

/-- what `ax.plot_surface` receives, plot_mpl.py:94-118; `.obj 0` and `.obj 1` are the integers 0 and 1, `.obj 2` is `True` and
`.obj 3` the colour map `_cm.jet` -/
def mplSurfOpts (kw : Opts) : Opts :=
  let o := dels kw ["name", "representation", "opacity", "colormap", "resolution", "scale_factor", "scale_mode", "tube_radius",
    "tube_sides", "line_width"]
  let o := (o.put "rstride" (.obj 1)).put "cstride" (.obj 1)
  let o := o.default "linewidth" (.obj 0)
  let o := if o "color" = none ∧ o "cmap" = none then o.put "cmap" (.obj 3) else o
  (o.put "shade" (.obj 2)).put "antialiased" (.obj 2)

end Session

end Igakit
