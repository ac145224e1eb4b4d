# Design of the igakit model

igakit (pinned in /repo) is a Python package over a Fortran kernel.  The Fortran modules `bspline`, `BSp`
and `IGA` (igakit/igalib.f90) implement the NURBS-book algorithms; `nurbs.py`, `cad.py`, `transform.py`, `io.py`
call them.  The model is a function-by-function Lean 4 transcription; the specification is separate and small.

## Trusted base

* Lean 4.33.0 kernel, Mathlib as installed.
* Axioms: `propext`, `Classical.choice`, `Quot.sound` only.  No own axioms, no `sorry`, no `native_decide`, no `bv_decide`.
* The transcription of the code into the model (read by hand; each definition cites file and lines).
* What the model replaces (stated again at each definition):
  - `real(kind=8)` / numpy float64 become elements of an arbitrary linearly ordered field `K`
    (ℝ where sqrt, sin, cos, arctan2 or norms occur: angles, circle, revolve, remove, join).
    Rounding is modelled only in the modules `Model/Float*` (C71-C76, C90, C91, C99, C101, C104-C116: basis functions, evaluation, knot insertion and refinement, slices,
    clamp, remap, reverse, KnotVector, Greville, transformations, circles and arcs, extrude and sweep, grid, the constructor; no overflow, infinities and NaN one value, each operation rounded by itself, but any order of
    summation and fused operations in the `np.dot` of transformations); elsewhere rounding, overflow, NaN, inf are not modelled.  Lean's `x/0 = 0` is never relied on: theorems assume or prove
    the denominators nonzero.
  - decimal literals (Gauss tables, default deviation `1e-9`, coons' `1e-15`) become exact rationals.
  - `epsilon(uu)` becomes a parameter `eps > 0`; theorems assume distinct knots at least `eps` apart.
  - in the heap model the criterion by which `remove` accepts a removal is an arbitrary test (`near`).
  - `arctan2` is `Complex.arg`.
  - integer(kind=4) become unbounded `ℤ` (no overflow).  This is an assumption on the sizes of arrays only, except for
    `Bin` in degree elevation, whose 32 bit arithmetic is modelled (`Model/Elevate32.lean`, C89).
  - Fortran arrays become total functions on `ℤ`; declared bounds are checked only in `Model/Bounds*`, `DerivLoops`, `QuadLoops` (C77-C79).  Output arrays
    start with arbitrary contents (`jk`, `je`, `Mem`, `Scratch`, ...), and theorems state results only for in-range
    entries and only from in-range inputs.  A theorem quantifies over all contents, so a result which depended on
    unset memory would not be provable.
  - the component index `d` of control points becomes an arbitrary `K`-module `E` (the code acts componentwise).
  - Python exceptions are values of `Err`: `f2py` (input check of the wrapper), `assertion`, `index`, `value`, `stop`
    (Fortran `stop`, which ends the process).
  - file contents are lists of bytes; the conversion of a float to 8 bytes is an abstract pair of functions with
    "decode after encode is the identity" (integers are computed big endian words).
  - the heap model (`Model/Heap`) has array cells and objects referring to them; numpy views are modelled only where
    the code creates them (constructor, clone, properties); garbage collection and identity of Python lists are not.
* Not modelled: figures and the drawing libraries of plotting, and what these make of options and colours (the points, lines and polygons handed to them
  are), f2py glue (except the input checks in igalib.pyf),
  numpy itself (reshape/rollaxis/transposes are modelled by their index semantics), operating system errors,
  `__repr__`/`__str__`, `BSp.Evaluate0` (copies its argument; not called from Python).
  `demo/` (except `demo/conformal.py` and `InsertUniformly` of `demo/venturi.py`), `doc/` and `test/` of the repository are not code users call.

The axioms of every theorem named in MANIFEST.json, as printed by `#print axioms`, are in `AXIOMS.txt`.

## Layout

    lean/Verif/Model/   transcription of the code, one file per area
    lean/Verif/Spec/    specification: Cox-de Boor functions, tensor splines, multiplicity, histories, ...
    lean/Verif/Proofs/  helper lemmas
    lean/Verif/Props/   property theorems (one file per group), with examples
    seeded/LOG.jsonl    wrong programs tried against the theorems

| model file | code |
|---|---|
| Loops | Fortran `do` and `do while` |
| BSpline, SpanMult | igalib.f90, module `bspline`: FindSpan, FindMult, FindSpanMult, BasisFuns, CurvePoint, SurfacePoint, CurvePntByCornerCut, InsertKnot, RefineKnotVector, ClampKnot, UnclampKnot |
| BSp | igalib.f90 module `BSp` with the checks of igalib.pyf: the wrappers of these, Evaluate1/2/3 |
| Ders, Derivs | DersBasisFuns; TensorProd1/2/3, Rationalize, Gradient, Hessian, ThirdDer, FourthDer, Determinant, Inverse, GeometryMap, `nrb.gradient/hessian/derivative` |
| Remove, Elevate | RemoveKnot, DegreeElevate and the methods `remove`, `elevate` |
| Iga, Quad | KnotVector, Greville, SpanIndex, CountSpans; Gauss rules, BasisData, BasisDataCol |
| Nurbs, Ctor | nurbs.py: all geometric methods, `__call__`, constructor and properties |
| Transform, TransHeap | transform.py, as matrices and as objects on a heap |
| Cad, Compat, Coons, Join, CadRefine | cad.py |
| Eval, Abscissae | `__call__` and `evaluate` with all forms of arguments; `lagrange`, `lobatto` |
| Io, Vtk | io.py |
| Plot | plot.py; the geometry in plot_mpl.py and plot_myv.py |
| PlotSession | plot.py again, with the selection of the backend, options, the calls received and the state left by exceptions; options in plot_mpl.py |
| Special | FindSpan, remap and the checks at the beginning of insert, remove, refine, slice, extract and evaluation, for doubles with NaN and infinities |
| Elevate32 | `Bin`, `bezalfs` of `DegreeElevate` (igalib.f90:524-536, 641-650) with 32 bit products, checked and wrapping |
| FloatRefine | `RefineKnotVector` (igalib.f90:446-496), `insert`, `refine` (nurbs.py) in machine arithmetic with rounding `rd` and NaN |
| FloatParts | `CurvePntByCornerCut` (igalib.f90:179-225), `ClampKnot` (358-409), `slice`, `clamp`, `extract`, `boundary` (nurbs.py) in machine arithmetic |
| Conformal | `ConformalProjectionError` (demo/conformal.py:6-59), `QuasiConformalProjection` (61-152), `np.linalg.solve` exact |
| Uniform | `InsertUniformly` (demo/venturi.py:5-44), with a bound on the rounds of the loop |
| FloatTrans | `transform.__call__`, `NURBS.transform` in floating point, as a relation |
| FloatCompose | `transform.compose` and chains of it in floating point, as a relation |
| FloatRotate | the matrix of `transform.rotate` in floating point, as a relation; sin and cos with an assumed relative error |
| FloatCircle | `cad.circle(radius)`, `cad.circle(radius, center)` in floating point; knots exact |
| FloatArc | `cad.circle(radius, angle=...)` in floating point, with and without centre, as a relation |
| FloatSweep | `cad.extrude` (as a relation) and `cad.sweep` in floating point |
| FloatGrid | `cad.grid` in floating point |
| FloatCtor | `NURBS.__init__`, `points`, `fields` in floating point |
| Float | BasisFuns, Evaluate1/2/3, InsertKnot and `__call__` again, every operation rounded |
| FloatKnots | remap, reverse, KnotVector, Greville and the knots inserted by `cad.refine`, with a rounding after every operation; no fused multiply-add, sums from left to right |
| Bounds, BoundsEval, BoundsApi | the routines of `bspline`, Evaluate1/2/3, SpanIndex, Greville, KnotVector, CountSpans and the methods calling them again, arrays with declared bounds and checked accesses |
| DerivLoops, QuadLoops | TensorProd, Rationalize, Interpolate, GeometryMap, Gradient … FourthDer, BasisData, BasisDataCol again, with loops, storage and checked accesses |
| Heap, CadHeap | nurbs.py and cad.py again, as programs on shared arrays with exceptions |

## How proofs go

Loops are `forUp`/`forDown` (Fortran `do`), reasoned about with an invariant rule.  Spline identities rest on the *blossom*:
on a nonempty span k the control points are the values of one symmetric multiaffine form f at consecutive knots,
P_i = f(U_{i+1},...,U_{i+p}), and de Boor's algorithm evaluates f(u,...,u).  Insertion, refinement, clamping,
unclamping, slicing, corner cutting, removal, degree elevation and reversal all produce values of the same f at other knots.

## Plan per property

| id | modelled | proof idea |
|----|----------|------------|
| C01 | FindSpan with its while loop (fuel-free: loop as relation / well-founded) | invariant U[low]<=u<U[high]; high-low decreases |
| C02 | FindMult, FindSpanMult, BSp.FindMult | run of equal knots sits inside the window |
| C03 | BasisFuns | invariant of outer loop: after j, N holds Cox-de Boor values of degree j |
| C04 | BasisFuns | same invariant, sums and signs |
| C05 | CurvePoint, SurfacePoint, Evaluate1/2/3 | loop = Finset sum; C03 |
| C06 | NURBS call, rational division | C04 and C05 |
| C07 | BSp.InsertKnot, NURBS.insert | blossom |
| C08 | same functions, concrete witness | refutation by computation plus general statement for the end branch |
| C09 | RefineKnotVector, NURBS.refine | blossom invariant of the backward merge |
| C10 | NURBS.slice | C09, restriction of blossoms |
| C11 | CurvePntByCornerCut, extract, boundary | blossom, each branch |
| C12 | same | refutation with witness; guarded theorem in C11 |
| C13 | ClampKnot with KntIns, wrapper | blossom |
| C14 | UnclampKnot, wrapper | blossom, backwards |
| C15 | both | uniqueness of control points given blossom and knots |
| C16 | DegreeElevate | blossom of degree p+t is the average over p-subsets; start with single span, then general |
| C17 | RemoveKnot | inverse of Boehm's formula |
| C18 | NURBS.reverse | symmetry of blossom |
| C19 | NURBS.remap | affine invariance of Cox-de Boor |
| C20 | transpose, swap | exchange of finite sums |
| C21 | transform class, NURBS.transform | linearity of evaluation, partition of unity |
| C22 | transform class | matrix algebra over ℝ |
| C23 | NURBS.__init__ and accessors | case analysis |
| C24 | Greville, cad.grid | blossom of the identity is the mean |
| C25 | IGA.KnotVector | index arithmetic invariants |
| C26 | DersBasisFuns | polynomial Cox-de Boor, derivative formula, table invariant |
| C27 | TensorProd*, Rationalize, Gradient/Hessian/ThirdDer | Leibniz rule uniqueness |
| C28 | TensorProd1, Rationalize order 4 | refutation with witnesses |
| C29 | Determinant, Inverse, GeometryMap | matrix identities |
| C30 | Gauss tables as rationals | whole table checked by kernel evaluation, lifted to all polynomials by linearity |
| C31 | BasisData | span enumeration, C04 |
| C32 | SpanIndex, CountSpans, breaks | loop invariants |
| C33 | cad.circle | real algebra on each quarter |
| C34 | line, linear, bilinear, trilinear | evaluation of degree one splines |
| C35 | extrude, ruled, sweep | evaluation is bilinear |
| C36 | revolve | circle of radius one |
| C37 | coons | restriction to sides, witness for weights |
| C38 | join | locality of blossoms, witness for nonzero starts |
| C39 | compat | uses refine, remap, elevate theorems |
| C40 | cad.refine | knot multisets, C09 |
| C41 | PetIGA.write/read at byte level | parser inverts printer |
| C42 | same | prefix argument |
| C43 | write_vec, read_vec, read_mat | same |
| C44 | VTK index order | mixed radix bijection |
| C45 | heap model of copy, clone, methods | frame lemmas, induction over histories |
| C46 | sequence of operations | induction over histories |
| C47 | methods as state transformers with exceptions | case analysis on error paths |
| C48-C53 | all geometric methods | linear independence of the basis functions: knots and map determine the net |
| C54 | axis arguments | case analysis |
| C55 | forms of the arguments of a call | shapes of grids with squeezed axes |
| C56 | Lagrange and Lobatto abscissae | loop invariant over the elements |
| C57 | smoothness (over ℝ) | polar forms of neighbouring pieces differ by a power of `u - u0`; truncated powers |
| C58 | sections commute, conforming faces | sections as maps + uniqueness of control points (C48) |
| C59 | unclamp of a closed map is periodic | polar forms: derivatives up to C agree iff the forms agree on p-C copies of the end |
| C60 | remove takes out what can be removed | the removal loop commutes with linear maps; per component it recovers the coarser points, so all distances are 0 |
| C61 | removable iff smooth | polar forms left and right of the knot agree on p-s+t free arguments iff the derivatives agree; one-sided limits of derivatives; net_unique on the other axes |
| C62 | local control | support and positivity of B-splines (`bsplineD_support`, `bsplineD_pos`, from the span search); evaluation is linear in one net entry |
| C63, C64 | drawings of objects, knots, control points | evaluation on grids (C55), sections (C11); rollaxis + reshape as a bijection of indices |
| C65 | backends | index arithmetic of grids; induction over the stacked blocks |
| C66 | variation diminution | knot insertion to full multiplicity as corner cutting; alternating subsequences lift step by step |
| C67 | clamped ends: corners, boundary nets, end tangents | only one basis function is non-zero at the end; derivative of the outermost span polynomial through its form; quotient rule |
| C68 | assembly over elements: matrices, loads, mass matrix | error of the rule per element in the coordinate of the span, coefficient sums of the span polynomials, sum over the spans; positive definite: a polynomial of degree p with p+1 roots, linear independence |
| C69 | transform objects do not disturb each other | simulation between the heap and a value semantics, induction over programs; arrays are never written by methods, without `clone` no array has two owners |
| C70 | functions of cad.py leave their arguments alone | simulation of the value models of cad.py by statements on the heap, with the frame "no array and no object outside of this set changes"; the clones are the only objects changed |
| C71 | rounding errors of the basis functions | the loops of BasisFuns with and without rounding run side by side; relation "finite, nonnegative, equal up to k factors 1/(1-δ)"; all operations there preserve it as nothing is subtracted but knots. Signs with underflow: monotonicity of rounding |
| C72 | rounding errors of points and fields | the same for Evaluate1/2/3 with the relation "off by (growth^k - 1) times the bound", then the quotient |
| C73 | rounding errors of knot insertion | any relation between rounded and exact numbers that one corner cut preserves (counting cuts) is preserved by InsertKnot; used twice: absolute error, and bounds of positive components. The curve moves no more than the net |
| C74 | rounding of remapped and reversed knots | relative errors compose under products and differences (`Fp.Rel`); order is kept because every step is monotone; ends by exactness; three reversals by Sterbenz' lemma. Negative parts: evaluation in double precision with `decide +kernel` |
| C75 | generated knots in floating point | interior loop for any break function; spacing condition makes the breaks increasing; wrapped vector characterised by shifts, sorted by induction from the ends |
| C76 | Greville abscissae in floating point | partial sums stay between multiples of bounds if those are exact; error by induction over the sum |
| C77 | array bounds | every routine transcribed a second time in a monad with checked accesses; equality with the unchecked model, loop by loop with an invariant on the bounds; elevate reuses the counters of the C36 proof |
| C78 | derivative arrays | nested loops with independent rounds: each round succeeds, sets its own elements and leaves those of the others; column-major offsets are injective and onto; the rounds of Rationalize refine the formulas of Model/Derivs; sums over offsets are sums over local indices |
| C79 | quadrature arrays | the same principle for elements and points; counters of the offset loop compared with CountSpans |
| C80 | interpolation | total positivity: knot insertion writes each basis function as nonnegative combination of two neighbours; the determinant is expanded in the columns, and the points become knots of full multiplicity; a zero on the diagonal is the corner of a block of zeros; tensor products of inverse matrices |
| C81 | backend selection | relations between the state before and after a program, closed under sequencing and loops; induction over histories |
| C82 | calls and options | the programs with effects compute what the functions of Model.Plot compute; options key by key |
| C83 | control points are averages | polar forms evaluated at refined knots are convex combinations of those at the old ones (split the arguments at the middle of the window); elevation as a mean over omitted arguments; uniqueness of the representation; induction over histories |
| C84 | special values | the search with comparisons that are only known to exclude each other; checks case by case, min/max/sort with NaN |
| C85 | parts | knots of a part (end values degree+1 times, inner knots kept) and its map determine it; so every way to obtain it gives the same net |
| C86 | derivatives follow the object | a box inside the knot spans of both objects; derivatives within it are those of the map; chain rule by iterated one-variable derivatives |
| C87 | control nets converge | form of the derivative, whose values at knot windows are the divided differences; windows split at a span; paths in the net |
| C88 | cut and rejoin | exact knots of the joined object before removal; it has the object as a coarser description; uniqueness of control points |
| C89 | degree elevation in 32 bits | bound on the products of `Bin`; equality of the tables; knots independent of the table; row sum by Vandermonde; convexity |
| C90 | rounding errors of refinement and of histories | relation between the machine run and the exact run of the loops of `RefineKnotVector` (`forDown_rel`), graded by the knots inserted; transitivity of `NearMap`; induction on `MachineRun` |
| C91 | rounding errors of parts, sections, clamping; histories over dimensions | graded relation between the machine run and the exact run of corner cutting and `KntIns`; `Tracks`; transitivity of `NearOn`; induction on `MachineHist` |
| C92 | matrices and volumes assembled over surfaces and solids | product form of the weights; L1 norms of multivariate polynomials on cells; disjoint cover of the box by cells; global functions; determinants of polynomials |
| C93 | conformality error of a surface (`demo/conformal.py`) | the sums of the program are the local sums of C92, hence the partial derivatives; C92 for polynomials of degree 2p; mirrored rectangles as counterexamples |
| C94 | least conformality error (`QuasiConformalProjection`) | the matrix is a positive semidefinite form; elimination of prescribed values as an invariant of the loop; completion of the square; regularity row by row: the order of vanishing of the pieces at the last equal knot, polynomials of degree p with p+1 zeros, injectivity of the collocation (C67) |
| C95 | knots for nearly uniform spans (`InsertUniformly`) | the state after r rounds is the subdivision of every span into `2^lev` parts; one round raises `lev` where a part is too long; points inside a span are half-way between their neighbours, so smoothing is the identity; the loop by induction on the rounds left |
| C96 | extrude, sweep, revolve in another coordinate frame | nets equal entry by entry; revolve: the arc does not depend on uninitialised memory, and an isometry carries cross products over up to its determinant (adjugate), hence rotations about the axis too |
| C97 | ruled and coons in another coordinate frame | both are given by formulas linear in the homogeneous coordinates (C35, C37), and so commute with the matrix |
| C98 | building commutes with refinement and sections | a built object is `Φ(t, N(x))` over the axes of `N` (`Built`); refinement keeps maps and fixes the knots (C50), sections restrict maps (C58), and equal maps over equal knots have equal nets (C48) |
| C99 | rounding errors of transformations | `np.dot` as a relation (all orders, fused or not); induction over the formation of the sum gives `n + 1` roundings, and exactness when at most one product is not zero; then positive weights and C72 |
| C100 | compat: one result, any order of objects, idempotent | partial as C39; greatest elements are unique, so `Merged` fixes the multiplicities and with clamped ends the knots; equal knots and equal maps give equal control points (`sameData_of_knots`) |
| C101 | rounding errors of composed transformations | chain of `np.dot` as a relation; induction over the calls: four products whose second factors carry `m` roundings carry `m + 5`; sums with one product other than zero are exact (C99) |
| C102 | ruled and coons with arguments exchanged | partial as C35, C37; from the formulas of both results; the patches differ by a bilinear combination of the gaps in the corners |
| C103 | building depends on the maps, not on their representation | partial where `compat` is used (C39); the value of a built object is a function of the value of its arguments at the corresponding parameter (`Built`, C35, C37) |
| C104 | rounding errors of rotations, and of chains of rounded matrices | proved; the relative error of sin and cos is assumed (`Libm`); without underflow, finding 41 |
| C105 | placing an object and evaluating it, all in floating point | proved; joins C72, C99, C101, C104; assumptions as there |
| C106 | the full circle, built and evaluated in floating point | proved for `circle(radius)` and `circle(radius, center)` |
| C107 | circular arcs, built and evaluated in floating point | proved |
| C108 | extrude and sweep, built and evaluated in floating point | proved |
| C109 | the call at a clamped corner in floating point | proved |
| C110 | lines and multilinear patches in floating point | proved |
| C111 | `grid`, built and evaluated in floating point | proved |
| C112 | the constructor in floating point | proved |
| C113 | points, weights and fields come back in floating point | proved |
| C114 | signs, relative errors and boxes of points in floating point | proved; components of an evaluation do not influence each other, so each nonnegative one behaves like a weight |
| C115 | reflections and powers of two are exact, memory does not matter | proved; both runs side by side with the relation "times a factor" |
| C116 | parameters in units that differ by a power of two | proved; basis functions of scaled knots are equal bit for bit |

(Rows C48 onwards were added as the model grew; see MANIFEST.json for the theorems and the statuses.)

## What the proofs found out about the code

A property which is false of the code is kept with a proved counterexample and a guarded theorem.

1. `TensorProd1` (igalib.f90:687) fills the fourth derivative from the third: the fourth derivative of a curve is the
   third (C28); `Rationalize` lacks a term at order four for every dimension (C28).
2. `CurvePntByCornerCut` is wrong at the right end of an unclamped vector, hence `extract`/`boundary` there (C12);
   `InsertKnot` is wrong at the right end of an unclamped vector (C08).
3. `CountSpans` counts one span too many if `U[n] = U[n+1]`, and then `SpanIndex` returns unset memory (C32).  The test there
   is exact equality whereas other routines use `epsilon`.
4. `elevate` is right for clamped knots of degree at most 9.  For unclamped knots it is wrong, and for degree 10 or more it is
   wrong when the multiplicity of neighbouring interior knots jumps up by two or more (C16).  `elevate`, `compat`,
   `ruled` and `coons` do not clamp first (`cad.refine` does; `join` clamps one side only).
5. `join` shifts the second object by the end of the first rather than by the difference: right only if it starts at 0 (C38).
6. `coons` interpolates its boundaries only if the corner weights are one (C37).
7. `revolve` around `-z` fails with an assertion (C36); `revolve`, `extrude`, `ruled`, `sweep`, `coons` drop fields.
8. `remove` computes its tolerance from the last column (a field if there are fields) at the last position of the other axes and
   from weighted coordinates: `deviation` bounds the movement of points without weights (C17_remove_points) but not
   with them (C17_rational_exceeds).  A negative last column blocks all removal.
9. `transpose` with negative axes moves the net and the knots differently (C20).
10. The constructor keeps the caller's arrays (C45); `refine` sorts the caller's array in place, even if it then rejects it, and
    `refine(axis, nrb.array)`-like calls scramble the net (C47); `grid` and `cad.refine` write into arguments.
11. The constructor accepts fewer control points than the degree needs; a pair is taken as (control, weights).
12. `compat` does not merge knots outside the domain; repeated axes are treated twice.
13. `PetIGA.write` with default `nsd` drops coordinates (C41), fields are divided by the weights and lost where a weight is zero;
    `read` does not check knots and ignores trailing bytes.
14. `circle` with an empty sweep raises ValueError; sweeps of two turns and more are cut in segments which are too long (C33).
15. `hessian` and higher derivatives with `mapped=True` end the process (C29).
16. `BasisData` with the default number of points rejects degrees of ten and more (C31).
17. The default parameters of a call are the Greville abscissae; on unclamped objects some lie outside the domain, are not checked, and the values come from extrapolated pieces (C55).
18. `lobatto` rejects degrees of ten and more (C56).
19. `kwire` with a negative axis number other than -1 draws mixed up lines: `rollaxis` counts the axis of the components (C64).
20. `ksurf` of a surface hands curves to `surf3d`, which draws nothing (C65).
21. `extrude` and `sweep` return objects that refer to the knot arrays of their arguments, so assigning to an entry of
    `result.knots[0]` changes the argument (C70); `refine` returns an object that shares nothing.
22. In floating point the basis functions at the ends of a clamped vector are not exactly 1: for the knots 0, 0, 49, 49 the first
    is `49*(1/49) = 1 - 2^-53` (C71).
23. `remap` may miss the end asked for: from [0, 49] to [0, 1] the new domain ends at 1 - 2^-53, and evaluation at 1.0 raises
    AssertionError; from [0, 25] to [0, 7] it ends beyond 7 (`C74_remap_misses`).
24. `reverse` may move both ends of the domain: [0.1, 1] becomes one that begins at 0.10000000000000009, so the old start is rejected
    (`C74_reverse_misses`).  Reversing twice may change knots, and may merge knots closer than the spacing of doubles at the end of the
    domain, leaving an invalid object (`C74_reverse_loses`).
25. Greville abscissae of degree 3 or more may lie outside the domain: on [0, 0.1] the last is 0.10000000000000002, so
    `nrb(nrb.greville(0))` raises AssertionError (`C76_leaves`).

26. Nothing checks that an axis has more control points than its degree: `NURBS([[0,0,0,0,1]], two points)` is accepted with degree 2,
    and evaluation, clamp and extract read `Pw(:,-1)` (`C77_few_points`).
27. `elevate` of an unclamped axis, or of one with an interior knot repeated more often than the degree, writes outside its arrays
    (`C77_elevate_faults`).
28. `remove` of a value that is not a knot but closer than the tolerance to one may read `Pw(:,-1)` (`C77_remove_faults`).
29. Module `bsp` called directly does not check the number of insertions against the multiplicity, `C` of Unclamp, the domain of the
    values of RefineKnotVector, or a span given by the caller; each can leave the arrays (`C77_bsp_faults`).
30. `Gradient` etc. pass tables of `0:1`, `0:2` or `0:3` derivatives to dummy arguments declared `iN(ina,0:4)`: not standard
    conforming, harmless because only the columns present are used (the offsets are checked in C78, the declared extent of the second index is not).
31. `BasisData` stores the offsets of spans longer than epsilon, but its arrays have one element for each span with different end
    knots: with a shorter span the last offsets are never assigned and used as indices (`C79_tiny_span`).
32. `cplot(nrb, mode=...)` and `kplot` hand the same `mode` to points and lines: with a mode of points the points are drawn and then an
    AssertionError is raised, with a mode of lines `points3d` gets it (`C82_control`, `C82_knots`).
33. `plot_mpl` has no `quiver3d` (`C82_quiver`) and lets through options matplotlib does not know (`C82_mpl_leak`).
34. `volume` computes options it does not use (plot.py:248-251; harmless).
35. `unclamp` extrapolates: positive weights can become negative or zero (`C83_unclamp_negative`: weights 1, 10, 1, ... become -8, 10, 1, ...).
36. `remap(axis, 0, inf)` and the like are accepted and leave NaN knots (`C84_remap_inf`).
37. `elevate` to a final degree of 30 or more overflows the 32 bit `Bin` (igalib.f90:641-650) and returns a wrong object without
    an error: a Bezier curve of degree 29 with unit weights, elevated once, gets the weight -1.18 (`C89_overflow`, `C89_point`, `C89_wrong`).
38. `ConformalProjectionError` (demo/conformal.py:56) weights the points with `Ju*Ju` instead of `Ju*Jv`, and multiplies homogeneous
    coordinates with rational functions that already contain the weights (51-54): wrong for elements that are not squares of one
    size and for weights other than 1 (`C93_value`, `C93_elements`, `C93_weights`).
39. `InsertUniformly` (demo/venturi.py:5-44) does not produce the `n` uniform spans of its description: a single span becomes
    `2^⌈log₂ n⌉` (C95_single). The smoothing passes of lines 40-43 never change anything in exact arithmetic. With `n < 0` the
    loop does not end (C95_negative). The demo itself calls `tube.refine(insert_U, insert_V)` and `NURBS(P, [U, V])`, which do
    not match the signatures `refine(axis, values)` and `NURBS(knots, control)` of the pinned version.
40. `coons` compares corners with the fixed tolerance `1e-15` (cad.py:588), so whether it accepts four curves depends on the
    unit of length: there are curves that it accepts and refuses after doubling their size (C97_coons_unit).
41. `rotate(angle, axis)` with a vector whose squares underflow, such as `[2**-600]`, raises AssertionError though the vector is not
    zero (transform.py:104-105; `C104_underflow`).
42. A clamped curve need not start at its first control point in double precision: over `[0, 49]` the first basis function at 0
    is `1 - 2^-53` (igalib.f90:61-72; `C71_not_exact`), and the call at 0 does not return the rounded quotient of the first
    control point and its weight (`Ex.C109_needed`).
43. `points` need not return the control points given to the constructor in double precision: 0.1 with weight 3 comes back as
    0.10000000000000002 (`Ex.C113_not_exact`).
