{"id": "C01", "title": "Knot span search always terminates and brackets the parameter", "statement": "bsp.FindSpan(p,U,u) returns for every knot array and every u; the result k satisfies p<=k<=n, U[k]<=u<U[k+1] when U[p]<u<U[n+1], k=p when u<=U[p] (and u<U[n+1]), k=n when u>=U[n+1]; on a nondecreasing array it is the only index that brackets an interior u.", "quantifier": "every degree p, every control point count, every knot array (sorted or not, any spacing, repeated knots), every parameter value", "why_tests_cant": "the search is a while loop over an unbounded family of arrays; a test sees finitely many arrays and can never exhibit the absence of an endless loop", "anchors": ["igakit/igalib.f90:FindSpan", "igakit/igalib.f90:BSp.FindSpan"]}
{"id": "C02", "title": "Reported multiplicity is the true multiplicity", "statement": "For a nondecreasing knot vector whose distinct knots are at least epsilon apart, bsp.FindMult(p,U,u) equals the number of positions of U that hold u, whenever u occurs at most p+1 times and lies in the domain; it is 0 when u is not a knot.", "quantifier": "every degree, every knot vector with distinct knots at least epsilon apart, every u in the domain", "why_tests_cant": "the count scans a window of 2p+2 positions around a searched span with an absolute tolerance; correctness depends on where the run of equal knots sits relative to the span for all arrays", "anchors": ["igakit/igalib.f90:FindMult", "igakit/igalib.f90:BSp.FindMult"]}
{"id": "C03", "title": "Basis functions are the B-spline basis", "statement": "bsp.EvalBasisFuns(p,U,u) returns the p+1 values N_{k-p,p}(u),...,N_{k,p}(u) of the Cox-de Boor B-spline basis, k being the span of u, and every B-spline outside that window vanishes at u.", "quantifier": "every degree, every nondecreasing knot vector, every u in a nonempty span", "why_tests_cant": "an identity between an in-place triangular algorithm and a recursive definition for every degree; tests only sample degrees and parameters", "anchors": ["igakit/igalib.f90:BasisFuns", "igakit/igalib.f90:BSp.EvalBasisFuns"]}
{"id": "C04", "title": "Basis functions are nonnegative and sum to one", "statement": "The values returned by bsp.EvalBasisFuns are all >=0 and add up to exactly 1 (exact arithmetic) for every u in the domain.", "quantifier": "every degree, every nondecreasing knot vector with nondegenerate ends, every u in [U[p],U[n+1]]", "why_tests_cant": "universally quantified over degree, knots and parameters", "anchors": ["igakit/igalib.f90:BasisFuns", "igakit/igalib.f90:BSp.EvalBasisFuns"]}
{"id": "C05", "title": "Evaluation is the tensor product B-spline sum", "statement": "bsp.Evaluate1/2/3 return, at every grid of parameters, the sum over all control points of the product of Cox-de Boor basis values times the control point; the result depends only on the in-range entries of knots and control points.", "quantifier": "all degrees, knot vectors, control nets with any number of components, parameter grids, dimensions 1 to 3", "why_tests_cant": "the equality ranges over unbounded degrees, sizes and nets, and the independence from out-of-range memory cannot be observed by sampling", "anchors": ["igakit/igalib.f90:BSp.Evaluate1", "igakit/igalib.f90:BSp.Evaluate2", "igakit/igalib.f90:BSp.Evaluate3", "igakit/nurbs.py:NURBS.__call__"]}
{"id": "C06", "title": "Convex hull property of evaluated points", "statement": "With positive weights every point returned by calling a NURBS object satisfies every linear inequality that all its control points satisfy (it lies in their convex hull); in particular it lies in the bounding box of nrb.points, and the denominator is never zero.", "quantifier": "all NURBS objects of dimension 1 to 3 with positive weights and valid knots, all in-domain parameters, all half-spaces", "why_tests_cant": "quantifies over all half-spaces, nets, weights and parameters", "anchors": ["igakit/nurbs.py:NURBS.__call__", "igakit/igalib.f90:BSp.Evaluate1"]}
{"id": "C07", "title": "Knot insertion preserves the map", "statement": "nrb.insert(axis,u,t) at a knot value strictly inside the domain leaves the evaluated map unchanged at every parameter, adds t control points on the axis, and its knot vector is the old one with t extra copies of u; the new arrays do not depend on uninitialised output memory.", "quantifier": "all degrees, nets, axes, valid knot vectors, inserted values strictly inside the domain, admissible t, all parameters", "why_tests_cant": "tests compare point samples of a few shapes; the identity is over all parameters, degrees and knot configurations (repeated knots, unclamped ends)", "anchors": ["igakit/nurbs.py:NURBS.insert", "igakit/igalib.f90:InsertKnot", "igakit/igalib.f90:BSp.InsertKnot"]}
{"id": "C08", "title": "Insertion at an unclamped domain end", "statement": "nrb.insert(axis,u,t) accepts u equal to the right end of the domain of an unclamped axis; the map should be unchanged. It is not: the control points produced are those of another curve.", "quantifier": "all unclamped knot vectors whose right end has multiplicity between 1 and p-1", "why_tests_cant": "no test inserts at the end of an unclamped vector; whether the accepted input is handled is a question about all such inputs", "anchors": ["igakit/nurbs.py:NURBS.insert", "igakit/igalib.f90:InsertKnot"]}
{"id": "C09", "title": "Knot refinement preserves the map and merges knots", "statement": "nrb.refine(axis,values) leaves the map unchanged at every parameter, gives a nondecreasing knot vector that is the multiset union of old knots and values, and adds len(values) control points.", "quantifier": "all degrees, nets, axes, valid knot vectors, finite lists of values in the open domain respecting multiplicity p, all parameters", "why_tests_cant": "the one-pass merge works on unboundedly many inserted values; tests use a handful", "anchors": ["igakit/nurbs.py:NURBS.refine", "igakit/igalib.f90:RefineKnotVector", "igakit/igalib.f90:BSp.RefineKnotVector"]}
{"id": "C10", "title": "Slicing restricts the map", "statement": "nrb.slice(axis,a,b) gives an object clamped at a and b whose map is the restriction of the original map to [a,b].", "quantifier": "all degrees, knot vectors, nets, axes, all a<b in the domain, all parameters in [a,b]", "why_tests_cant": "ranges over all cut positions including existing knots of any multiplicity", "anchors": ["igakit/nurbs.py:NURBS.slice"]}
{"id": "C11", "title": "Extraction and boundary equal evaluation", "statement": "nrb.extract(axis,u) and nrb.boundary(axis,side) give the object obtained by fixing the parameter on that axis; bsp.Extract(p,U,P,u) equals the curve point at u for interior u, for the left end, and for a clamped right end.", "quantifier": "all degrees, knot vectors, nets, u in the domain", "why_tests_cant": "corner cutting takes different branches depending on the multiplicity of u and on the domain end; the equality must hold on each", "anchors": ["igakit/nurbs.py:NURBS.extract", "igakit/nurbs.py:NURBS.boundary", "igakit/igalib.f90:CurvePntByCornerCut", "igakit/igalib.f90:BSp.Extract"]}
{"id": "C12", "title": "Right boundary of a partially clamped axis", "statement": "Extraction at the right end of an axis whose end knot has multiplicity s with 2<=s<p should equal the evaluated end point. It does not.", "quantifier": "all knot vectors of degree p>=3 with right end multiplicity between 2 and p-1 (reachable with nrb.unclamp(axis,continuity))", "why_tests_cant": "tests only use fully clamped or fully unclamped (multiplicity 1) ends", "anchors": ["igakit/igalib.f90:CurvePntByCornerCut", "igakit/nurbs.py:NURBS.boundary"]}
{"id": "C13", "title": "Clamping preserves the map and clamps", "statement": "nrb.clamp(axis,side) leaves the map unchanged on the domain, the number of control points unchanged, and makes the requested end knots equal to the domain end.", "quantifier": "all degrees, knot vectors with nondegenerate ends of any end multiplicity, sides, nets, parameters", "why_tests_cant": "identity over all parameters and unbounded degree", "anchors": ["igakit/nurbs.py:NURBS.clamp", "igakit/igalib.f90:ClampKnot", "igakit/igalib.f90:BSp.Clamp"]}
{"id": "C14", "title": "Unclamping preserves the map and gives periodic knots", "statement": "nrb.unclamp(axis,side,continuity) leaves the map unchanged on the domain and makes the end knots the translates by one period of the knots at the other end, nondecreasing.", "quantifier": "all degrees, knot vectors, continuities 0<=C<p, sides, nets, parameters, also when there are fewer spans than C", "why_tests_cant": "in-place updates read positions that were just overwritten when there are few spans; must hold for all sizes", "anchors": ["igakit/nurbs.py:NURBS.unclamp", "igakit/igalib.f90:UnclampKnot", "igakit/igalib.f90:BSp.Unclamp"]}
{"id": "C15", "title": "Clamp undoes unclamp", "statement": "Applying clamp after unclamp to a clamped object returns its control points and knots exactly (exact arithmetic).", "quantifier": "all degrees, clamped knot vectors, continuities, nets", "why_tests_cant": "round trip identity over unbounded data", "anchors": ["igakit/nurbs.py:NURBS.clamp", "igakit/nurbs.py:NURBS.unclamp", "igakit/igalib.f90:ClampKnot", "igakit/igalib.f90:UnclampKnot"]}
{"id": "C16", "title": "Degree elevation preserves the map", "statement": "nrb.elevate(axis,t) on a clamped axis raises the degree by t, raises the multiplicity of each distinct knot by t, and leaves the map unchanged.", "quantifier": "all degrees, clamped knot vectors with interior multiplicities at most p, t>=0, nets, parameters", "why_tests_cant": "a long in-place algorithm over unbounded degree, span count and t", "anchors": ["igakit/nurbs.py:NURBS.elevate", "igakit/igalib.f90:DegreeElevate", "igakit/igalib.f90:BSp.DegreeElevate"]}
{"id": "C17", "title": "Knot removal: no change beyond tolerance, inverse of insertion", "statement": "nrb.remove(axis,u,t) removes knots only when the removal criterion holds; removing a just inserted knot with any nonnegative tolerance restores knots and control points; at or outside the domain ends nothing changes. Without weights and fields the points of the curve or surface move by at most (number of removed knots)*deviation; for rational objects this fails, since the tolerance is computed from weighted coordinates.", "quantifier": "all degrees, knot vectors, nets, knot values, tolerances", "why_tests_cant": "round trip over unbounded data; the no-op branch must hold for all parameters", "anchors": ["igakit/nurbs.py:NURBS.remove", "igakit/igalib.f90:RemoveKnot", "igakit/igalib.f90:BSp.RemoveKnot"]}
{"id": "C18", "title": "Reversal reverses the parametrization and is an involution", "statement": "nrb.reverse(axis) evaluated at a+b-u equals the original at u for every u of the domain [a,b]; reversing twice gives back knots and control points.", "quantifier": "all degrees, knot vectors with interior multiplicity at most p, nets, parameters including knots", "why_tests_cant": "at knots the two evaluations use different polynomial pieces, so equality needs continuity for all multiplicities", "anchors": ["igakit/nurbs.py:NURBS.reverse"]}
{"id": "C19", "title": "Remapping is an affine change of parameter", "statement": "nrb.remap(axis,c,d) has domain [c,d] and at the affine image of u equals the original at u; remapping back restores the knots.", "quantifier": "all degrees, knot vectors, nets, c<d, parameters", "why_tests_cant": "equality over all parameters and intervals", "anchors": ["igakit/nurbs.py:NURBS.remap"]}
{"id": "C20", "title": "Transpose and swap permute parameters", "statement": "nrb.transpose(axes) evaluated at permuted parameters equals the original; nrb.swap(a,b) exchanges two parameters and is an involution; no axes means reversal of the axis order.", "quantifier": "all objects of dimension 1 to 3, all permutations, negative axis numbers, all parameters", "why_tests_cant": "over all nets and parameters, consistent permutation of knots and array axes", "anchors": ["igakit/nurbs.py:NURBS.transpose", "igakit/nurbs.py:NURBS.swap"]}
{"id": "C21", "title": "Affine invariance of transforms", "statement": "nrb.transform(T) evaluated at u equals T applied to the point of nrb at u, for translate, scale, rotate and any composition; fields and weights are unchanged by affine T.", "quantifier": "all objects, affine matrices, parameters", "why_tests_cant": "over all matrices, nets and parameters", "anchors": ["igakit/nurbs.py:NURBS.transform", "igakit/nurbs.py:NURBS.translate", "igakit/nurbs.py:NURBS.scale", "igakit/nurbs.py:NURBS.rotate", "igakit/transform.py:transform"]}
{"id": "C22", "title": "Transforms compose in call order, invert, and rotations are rigid", "statement": "A transform built by successive calls applies them in call order; the inverse composes to the identity; rotate gives a matrix with R R^T = I and det 1 that fixes its axis, for coordinate axes and arbitrary nonzero vectors, and rotation by a then b is rotation by a+b.", "quantifier": "all chains of calls, all angles, all nonzero axes", "why_tests_cant": "over all angles and axes and unbounded chains", "anchors": ["igakit/transform.py:transform.compose", "igakit/transform.py:transform.rotate", "igakit/transform.py:transform.inverse"]}
{"id": "C23", "title": "Constructor stores what the accessors return", "statement": "For NURBS(knots,control,weights,fields) the accessors return the padded points, the weights and the fields given (weights nonzero), degree[i]=len(knots[i])-shape[i]-1>=1, and shapes violating this are rejected.", "quantifier": "all dimension 1 to 3 nets, 1 to 4 components, weights, fields", "why_tests_cant": "over all shapes and values; normalisation by weights must cancel", "anchors": ["igakit/nurbs.py:NURBS.__init__", "igakit/nurbs.py:NURBS.points", "igakit/nurbs.py:NURBS.weights", "igakit/nurbs.py:NURBS.fields", "igakit/nurbs.py:NURBS.degree"]}
{"id": "C24", "title": "Greville abscissae reproduce the parameter", "statement": "bsp.Greville / nrb.greville give nondecreasing abscissae in the knot range such that the spline with these coefficients is the identity; hence cad.grid evaluates to the identity map of its box.", "quantifier": "all degrees, knot vectors, parameters", "why_tests_cant": "linear precision over all degrees and knots", "anchors": ["igakit/igalib.f90:BSp.Greville", "igakit/igalib.f90:IGA.Greville", "igakit/nurbs.py:NURBS.greville", "igakit/cad.py:grid"]}
{"id": "C25", "title": "Generated knot vectors have the promised structure", "statement": "iga.KnotVector(E,p,C,Ui,Uf,wrap) is nondecreasing, has exactly E nonempty spans of equal length, interior multiplicity p-C, and is clamped, or if wrapped is periodic with end multiplicity p-C.", "quantifier": "all E>=1, p>=1, 0<=C<p, Ui<Uf, wrap", "why_tests_cant": "over all element counts and degrees; wrapping reads entries written in the same loop when E is small", "anchors": ["igakit/igalib.f90:IGA.KnotVector", "igakit/cad.py:grid"]}
{"id": "C26", "title": "Derivatives of basis functions", "statement": "bsp.EvalBasisFunsDers(p,U,u,d) returns the derivatives of orders 0..d of the nonvanishing B-splines, zero for orders above p.", "quantifier": "all degrees, knot vectors, orders, parameters", "why_tests_cant": "the two-row in-place coefficient table must be right for all degrees and orders", "anchors": ["igakit/igalib.f90:DersBasisFuns", "igakit/igalib.f90:BSp.EvalBasisFunsDers"]}
{"id": "C27", "title": "Rational derivatives of orders one to three", "statement": "nrb.gradient, nrb.hessian and nrb.derivative(3) (unmapped) give the partial derivatives of the rational map, in all dimensions.", "quantifier": "all nets with nonzero denominators, all parameters, all mixed partials up to order three", "why_tests_cant": "quotient rule identities over all nets and weights", "anchors": ["igakit/igalib.f90:Rationalize", "igakit/igalib.f90:BSp.Gradient1", "igakit/igalib.f90:BSp.Hessian1", "igakit/igalib.f90:BSp.ThirdDer1", "igakit/nurbs.py:NURBS.gradient", "igakit/nurbs.py:NURBS.hessian"]}
{"id": "C28", "title": "Fourth derivatives", "statement": "nrb.derivative(4) should give fourth partial derivatives. It does not: for curves the basis table uses third derivatives, and for varying weights one term of the quotient rule is missing.", "quantifier": "all curves, all rational objects", "why_tests_cant": "tests compare only shapes of results for high orders", "anchors": ["igakit/igalib.f90:TensorProd1", "igakit/igalib.f90:Rationalize", "igakit/nurbs.py:NURBS.derivative"]}
{"id": "C29", "title": "Mapped gradients", "statement": "With mapping enabled the gradient of a field is the one with respect to physical coordinates: Inverse returns the matrix inverse for 1x1, 2x2, 3x3 with nonzero determinant and the mapped gradient of the geometry itself is the identity.", "quantifier": "all nets with invertible Jacobian, dimensions 1 to 3", "why_tests_cant": "matrix identities over all entries", "anchors": ["igakit/igalib.f90:Inverse", "igakit/igalib.f90:Determinant", "igakit/igalib.f90:GeometryMap"]}
{"id": "C30", "title": "Gauss rules are exact to the promised degree", "statement": "iga.GaussLegendreRule(q) integrates polynomials of degree <=2q-1 and iga.GaussLobattoRule(q) of degree <=2q-3 over [-1,1], up to an error of the size of the last printed digit times the coefficient sum; nodes are symmetric, increasing, in [-1,1]; weights positive.", "quantifier": "all polynomials of the stated degree, every tabulated q", "why_tests_cant": "quantifies over all polynomials; a wrong digit far right is invisible to sampled tests", "anchors": ["igakit/igalib.f90:GaussLegendreRule", "igakit/igalib.f90:GaussLobattoRule"]}
{"id": "C31", "title": "Quadrature data per element", "statement": "iga.BasisData places the scaled quadrature points inside each nonempty span, gives weights adding to the span length, offsets so that basis value a belongs to control point offset+a, and basis values adding to 1.", "quantifier": "all degrees, knot vectors, rules, elements", "why_tests_cant": "over all knot vectors and elements", "anchors": ["igakit/igalib.f90:BasisData", "igakit/igalib.pyf:BasisData"]}
{"id": "C32", "title": "Element enumeration", "statement": "bsp.SpanIndex and nrb.spans list exactly the indices of nonempty spans in increasing order; nrb.breaks lists exactly the distinct knots of the domain in increasing order.", "quantifier": "all knot vectors with nondegenerate right end and distinct knots epsilon apart", "why_tests_cant": "the count is taken by one routine and the list by another; agreement must hold for all vectors", "anchors": ["igakit/igalib.f90:BSp.SpanIndex", "igakit/igalib.pyf:CountSpans", "igakit/nurbs.py:NURBS.spans", "igakit/nurbs.py:NURBS.breaks"]}
{"id": "C33", "title": "Circle arcs lie on the circle", "statement": "Every point of cad.circle(radius,center,angle) is at distance radius from the center, for full circles and arcs, and an arc starts and ends at the requested angles.", "quantifier": "all radii, centers, angles with nonzero sweep of at most one turn, all parameters in [0,1]", "why_tests_cant": "a real algebraic identity over all parameters and angles", "anchors": ["igakit/cad.py:circle"]}
{"id": "C34", "title": "Line, bilinear and trilinear patches interpolate", "statement": "cad.line, cad.linear, cad.bilinear, cad.trilinear evaluate to the multilinear interpolation of their corner points.", "quantifier": "all points and parameters", "why_tests_cant": "over all points and parameters", "anchors": ["igakit/cad.py:line", "igakit/cad.py:linear", "igakit/cad.py:bilinear", "igakit/cad.py:trilinear"]}
{"id": "C35", "title": "Extrusion, ruled surface and sweep", "statement": "extrude(c,d)(u,v)=c(u)+v d; ruled(c1,c2)(u,0)=c1(u), (u,1)=c2(u); sweep(s,t)(u,v)=s(u)+t(v), also for rational inputs.", "quantifier": "all inputs, weights, parameters", "why_tests_cant": "over all nets, weights and parameters", "anchors": ["igakit/cad.py:extrude", "igakit/cad.py:ruled", "igakit/cad.py:sweep"]}
{"id": "C36", "title": "Revolution rotates the section about the axis", "statement": "revolve(c,point,axis,angle)(u,v) has the same distance to the axis and the same height along it as c(u), for rational inputs.", "quantifier": "all curves, weights, angles, parameters, axes for which the call succeeds", "why_tests_cant": "over all nets, weights, angles and parameters", "anchors": ["igakit/cad.py:revolve", "igakit/cad.py:circle"]}
{"id": "C37", "title": "Coons patch interpolates its four curves", "statement": "coons(curves) restricted to each side is the given curve when corner weights are 1; with other corner weights this fails.", "quantifier": "all compatible boundary curves", "why_tests_cant": "over all curves; failure only for unusual weights", "anchors": ["igakit/cad.py:coons"]}
{"id": "C38", "title": "Join concatenates", "statement": "join(n1,n2,axis) evaluates to n1 on the domain of n1 and to the shifted n2 afterwards when the domain of n2 starts at 0; for other starts it distorts the second piece or yields decreasing knots.", "quantifier": "all inputs with touching ends", "why_tests_cant": "over all domains; tests use the unit interval", "anchors": ["igakit/cad.py:join"]}
{"id": "C39", "title": "Compatibility makes degrees and knots equal without changing maps", "statement": "compat(n1,...,nk) returns objects with equal degrees and knots on each axis, each an affine reparametrization of its input; inputs are not modified.", "quantifier": "all lists of clamped objects", "why_tests_cant": "over unbounded lists and knot configurations", "anchors": ["igakit/cad.py:compat"]}
{"id": "C40", "title": "Uniform refinement spec", "statement": "cad.refine(nrb,factor,degree,continuity) inserts the equally spaced knots in each old element and raises multiplicities to at least p-C; the map is unchanged.", "quantifier": "all clamped objects, factors, continuities", "why_tests_cant": "over all knot vectors and factors", "anchors": ["igakit/cad.py:refine"]}
{"id": "C41", "title": "PetIGA files round trip", "statement": "PetIGA().read(file written by PetIGA().write(f,nrb,nsd=3)) gives back degrees, knots, control points, weights and fields exactly (exact arithmetic), for each integer width; with smaller nsd the coordinates beyond nsd are lost.", "quantifier": "all NURBS objects of dimension 1 to 3, with or without control and fields", "why_tests_cant": "round trip over all objects and byte layouts", "anchors": ["igakit/io.py:PetIGA.write", "igakit/io.py:PetIGA.read"]}
{"id": "C42", "title": "Truncated or foreign PetIGA files are rejected", "statement": "Every strict prefix of a file written by write (a crash at any byte) makes read raise, as does any file whose first integer is not the IGA id.", "quantifier": "all objects, all truncation points", "why_tests_cant": "all crash points of all files", "anchors": ["igakit/io.py:PetIGA.write", "igakit/io.py:PetIGA.read"]}
{"id": "C43", "title": "Vectors and matrices on disk", "statement": "read_vec(write_vec(v)) returns v; read_mat on a well formed compressed-row file returns row pointers starting at 0 and ending at nz; truncated files are rejected.", "quantifier": "all vectors, matrices, truncation points", "why_tests_cant": "over all arrays and crash points", "anchors": ["igakit/io.py:PetIGA.write_vec", "igakit/io.py:PetIGA.read_vec", "igakit/io.py:PetIGA.read_mat"]}
{"id": "C44", "title": "VTK point ordering", "statement": "VTK.write emits the sampled point with indices (i,j,k) at position i+nx*(j+ny*k), each point exactly once, as three coordinates.", "quantifier": "all grids", "why_tests_cant": "a bijection over all sizes", "anchors": ["igakit/io.py:VTK.write"]}
{"id": "C45", "title": "Copies are isolated, clones share, operations do not write through", "statement": "Writing through a copy never changes the original; clone shares storage; every geometry operation on a clone leaves the arrays reachable from the original unchanged; refine with a user array argument may reorder that user array.", "quantifier": "all heaps, all finite sequences of operations", "why_tests_cant": "aliasing over all histories of operations", "anchors": ["igakit/nurbs.py:NURBS.copy", "igakit/nurbs.py:NURBS.clone", "igakit/nurbs.py:NURBS.refine", "igakit/nurbs.py:NURBS.insert"]}
{"id": "C46", "title": "Histories of operations preserve validity and the map", "statement": "After any finite sequence of insert and refine (at values inside the domain, farther than the tolerance from other knots), clamp, unclamp, elevate (clamped knots), remap, reverse, swap, transpose and transform calls, with calls that raise among them, the object is still valid (sorted knots, sizes consistent) and evaluates to the original composed with the accumulated affine changes of parameter and multiplied by the accumulated matrix in space; other objects of the program, sharing arrays or not, do not matter.", "quantifier": "all finite sequences of operations on all valid objects", "why_tests_cant": "unbounded histories", "anchors": ["igakit/nurbs.py:NURBS"]}
{"id": "C47", "title": "Rejected calls leave the object unchanged", "statement": "If a geometry method raises (parameter out of domain, multiplicity beyond degree, bad axis or side) the object has the same knots and control points as before.", "quantifier": "all objects and all arguments", "why_tests_cant": "all error paths over all inputs", "anchors": ["igakit/nurbs.py:NURBS.insert", "igakit/nurbs.py:NURBS.refine", "igakit/nurbs.py:NURBS.remap", "igakit/nurbs.py:NURBS.slice"]}
{"id": "C48", "title": "Control points are determined by the map", "statement": "Two objects with the same shape and knots, no interior knot more than degree+1 times, that evaluate to the same homogeneous values everywhere on the domain have the same control points, weights and fields; without weights equal points and fields suffice. The bound on the multiplicity cannot be dropped.", "quantifier": "all valid objects of any dimension, degree and size", "why_tests_cant": "equality at all parameters is not testable and uniqueness is about all pairs of objects", "anchors": ["igakit/nurbs.py:NURBS.__init__", "igakit/nurbs.py:NURBS.__call__"]}
{"id": "C49", "title": "Results do not depend on uninitialised memory", "statement": "The geometry methods allocate result arrays without initialising them (np.empty and Fortran locals). After any sequence of method calls as in C46 the knots, control points, weights and fields depend only on the data before and the arguments, and whether a call raises does too.", "quantifier": "all finite sequences of calls, all contents of uninitialised memory", "why_tests_cant": "memory contents are not under the control of a test", "anchors": ["igakit/nurbs.py:NURBS", "igakit/igalib.f90:BSpline"]}
{"id": "C50", "title": "Order and grouping of refinements do not matter", "statement": "Knots added by insert and refine calls, in any order, with any division into calls and interleaved over the axes, give the same object, provided no knot is added beyond the degree; all the calls are accepted and the knots are the old ones and the added ones.", "quantifier": "all finite sequences of insert and refine calls on all valid objects", "why_tests_cant": "all orders of all sequences", "anchors": ["igakit/nurbs.py:NURBS.insert", "igakit/nurbs.py:NURBS.refine"]}
{"id": "C51", "title": "Superposition", "statement": "If the control net (homogeneous coordinates and fields) of an object is a linear combination of the nets of other objects with the same knots, it is the same linear combination of the resulting nets after any sequence of method calls as in C46 made on all of them.", "quantifier": "all valid objects, all linear combinations, all finite sequences of method calls", "why_tests_cant": "linearity over all inputs and histories", "anchors": ["igakit/nurbs.py:NURBS"]}
{"id": "C52", "title": "Fields and geometry do not mix", "statement": "After any sequence of method calls as in C46 the homogeneous coordinates do not depend on the fields, and a field depends neither on the geometry nor on other fields nor on its column.", "quantifier": "all valid objects, all finite sequences of method calls", "why_tests_cant": "non-interference over all inputs and histories", "anchors": ["igakit/nurbs.py:NURBS"]}
{"id": "C53", "title": "Sequences with the same effect give the same object", "statement": "Two sequences of method calls as in C46 with the same accumulated change of parameters and matrix that end with the same knots end with the same control points; in particular a transformation may be applied before or after any other calls.", "quantifier": "all valid objects, all finite sequences of method calls", "why_tests_cant": "all pairs of sequences", "anchors": ["igakit/nurbs.py:NURBS"]}
{"id": "C54", "title": "Axis numbers", "statement": "Every method with an axis argument (insert, remove, clamp, unclamp, refine, elevate, slice, extract, boundary, reverse, remap, swap, spans, breaks, greville) treats axis -k of a d-dimensional object exactly as axis d-k; exactly the numbers -d..d-1 name an axis, each only one; any other number raises IndexError whatever the other arguments are (except refine without values and elevate by zero, which return the object).", "quantifier": "all dimensions, objects, axis numbers and other arguments", "why_tests_cant": "equality of results for all objects and arguments, rejection for infinitely many numbers", "anchors": ["igakit/nurbs.py:NURBS.insert", "igakit/nurbs.py:NURBS.slice", "igakit/nurbs.py:NURBS.swap", "igakit/nurbs.py:NURBS.reverse"]}
{"id": "C55", "title": "Forms of the arguments of a call", "statement": "nrb(u,v,w,fields) and nrb.evaluate(fields,u,v,w): the result has one axis for each parameter that is not a single number, in order, and then the components; its entries are the points and fields at these parameters; None stands for the Greville abscissae; nrb(fields=True) and evaluate() give the fields of the object, an array F with one value or m values per control point gives the rational functions with these coefficients, the same from both methods; arrays of other shapes, empty sequences and parameters outside the domain are rejected. For unclamped axes the default parameters lie outside the domain and are used without check.", "quantifier": "all objects of dimension up to three, all combinations of numbers, sequences and defaults, all field arrays", "why_tests_cant": "infinitely many shapes and values; the reshaping must hold for all sizes", "anchors": ["igakit/nurbs.py:NURBS.__call__", "igakit/nurbs.py:NURBS.evaluate"]}
{"id": "C56", "title": "Lagrange and Lobatto abscissae", "statement": "nrb.lagrange(axis) and nrb.lobatto(axis) return, in strictly increasing order, degree+1 points on every element, the ends of the elements being shared: equally spaced points, or the images of the Gauss-Lobatto nodes; all breaks are among them and there are (elements*degree+1) of them. lobatto raises for degrees above nine.", "quantifier": "all knot vectors and degrees", "why_tests_cant": "order and count for all knot vectors and degrees", "anchors": ["igakit/nurbs.py:NURBS.lagrange", "igakit/nurbs.py:NURBS.lobatto"]}
{"id": "C57", "title": "Smoothness of the evaluated map follows from knot multiplicities", "statement": "The map computed by calling an object (points and fields) is r times continuously differentiable at every parameter of its domain where the weight does not vanish, provided each coordinate that is an interior knot has multiplicity at most degree minus r; inside the domain the derivatives are two-sided, and with positive weights this holds on the whole domain. In particular objects on knot vectors from iga.KnotVector(E,p,C), open or wrapped, are C times continuously differentiable. The bound is sharp.", "quantifier": "for all valid objects of dimension at most three over the reals, all degrees, knots, weights, all orders r, all parameters in the domain, all initial contents of work arrays", "why_tests_cant": "differentiability is a statement about limits at every parameter; finitely many evaluations cannot distinguish a C^r map from one with a small jump in its r-th derivative, nor cover all degrees and knot vectors.", "anchors": ["igakit/nurbs.py:NURBS.__call__", "igakit/igalib.f90:Evaluate1", "igakit/igalib.f90:BasisFuns", "igakit/igalib.f90:KnotVector"]}
{"id": "C58", "title": "Sections commute with each other and with refinement (conforming patches)", "statement": "Fixing two parameters with extract gives the same object (knots, control points, weights, fields) in either order. Extracting a section from a refined object (any accepted sequence of insert and refine calls) gives the same object as refining the section with the same knots, and likewise for elevate along another axis. Hence two objects with a common face still have identical faces after both are refined with the same knots along the face, whatever is inserted across it.", "quantifier": "for all valid objects of every dimension with interior multiplicities at most the degree, all pairs of axes, all parameters where extract is exact, all sequences of refinement calls", "why_tests_cant": "the two sides are computed by different sequences of different algorithms; equality for all knot vectors, positions and orders of calls needs the uniqueness of control points, not samples.", "anchors": ["igakit/nurbs.py:NURBS.extract", "igakit/nurbs.py:NURBS.boundary", "igakit/nurbs.py:NURBS.refine", "igakit/nurbs.py:NURBS.insert", "igakit/nurbs.py:NURBS.elevate"]}
{"id": "C59", "title": "Unclamping a smoothly closed object makes it periodic", "statement": "Take a NURBS object whose map closes to order C along an axis: near the two ends of the axis the (homogeneous) map is polynomial, and its derivatives of orders 0..C in that parameter agree at both ends, for all values of the other parameters. Then N.unclamp(axis, continuity=C) (by default C = degree-1, sides both) returns an object with the same map, whose knots repeat with the length of the domain, and whose first C+1 slices of control points, weights and fields along the axis are equal to its last C+1 slices. Conversely, an object with periodic knots and equal first and last slices closes to order C. So the control points can be identified to make a periodic discretisation.", "quantifier": "all ordered fields, dimensions, degrees, knot vectors (clamped or not), control nets and C with 0 <= C < degree; end knots separated from the others by at least the tolerance; multiplicities on the other axes at most degree+1", "why_tests_cant": "The equality of the first and last control points is a statement about all closed maps; a test sees single circles with one degree and one continuity, compared up to a tolerance.", "anchors": ["igakit/nurbs.py:NURBS.unclamp", "igakit/igalib.f90:UnclampKnot"]}
{"id": "C60", "title": "remove takes out every copy of a knot that the map does not need", "statement": "If the map of a NURBS object (homogeneous coordinates and fields) also has a description with r copies of an interior knot u of an axis less, and r is at most the number of copies asked for, then nrb.remove(axis, u, times, deviation) removes at least r copies, for every deviation >= 0. With times=r the result is that description: its knots, control points, weights and fields. With deviation=0 the result always has the same map, and the number of copies removed is the largest one for which the map has a description with so many copies less (or the number asked for).", "quantifier": "all dimensions, degrees, knot vectors, control nets, axes, interior knots of multiplicity at most the degree that are separated from the other knots by the tolerance, all values of times, all deviations >= 0; over the reals; for deviation > 0 the last column of the net is nonnegative; interior multiplicities on all axes at most degree+1", "why_tests_cant": "A test removes knots it inserted itself and compares a few points; that no removable knot is left behind, whatever the object and the history of its knots, is a statement about all maps.", "anchors": ["igakit/nurbs.py:NURBS.remove", "igakit/igalib.f90:RemoveKnot"]}
{"id": "C61", "title": "Removable knots are those the smoothness of the map does not need", "statement": "Let u be an interior knot of multiplicity s on an axis of degree p, s <= p. The map (homogeneous coordinates and fields) can be described with t copies of u less if and only if it is p-s+t times continuously differentiable in that parameter at u, for all values of the other parameters. So nrb.remove(axis, u, times, deviation=0) takes out t of the copies asked for if and only if the map is p-s+t times continuously differentiable there, and with any deviation >= 0 it takes out at least these.", "quantifier": "all dimensions, degrees, knot vectors, control nets, axes, interior knots of multiplicity at most the degree that are separated from the other knots by the tolerance, all values of times; over the reals; for deviation > 0 the last column of the net is nonnegative; interior multiplicities on all axes at most degree+1", "why_tests_cant": "Differentiability is not observable from finitely many points, and the equivalence ranges over all maps.", "anchors": ["igakit/nurbs.py:NURBS.remove", "igakit/igalib.f90:RemoveKnot"]}
{"id": "C62", "title": "Local control: what one control point can and cannot change", "statement": "Two objects that differ only in the control point, weight and fields with index i give, when called on the same grid, the same points and fields at all parameters outside the box of the knots i .. i+degree+1. If the weights are positive: moving that control point (and its fields) by v with its weight unchanged moves every evaluated point by R*v, where 0 <= R <= 1, R is the same for all coordinates and fields, R > 0 inside the box and R = 0 outside; multiplying its weight by mu > 0 (point in place) moves every evaluated point and field along the line to the control point, towards it for mu > 1, away from it for mu < 1, strictly inside the box.", "quantifier": "all objects of dimension 1-3, all degrees, knot vectors (clamped or not), control nets, grids of in-domain parameters, indices, displacements and factors; the part on moves and weights for positive weights", "why_tests_cant": "Tests see one object and a few parameters; the claim that nothing else changes ranges over all parameters, all other control points and all knot vectors.", "anchors": ["igakit/nurbs.py:NURBS.__call__", "igakit/igalib.f90:BasisFuns", "igakit/igalib.f90:FindSpan"]}
{"id": "C63", "title": "plot draws the object itself: curves, surfaces, faces of volumes, edges", "statement": "plt.curve draws for a curve the polyline of its points at equally spaced parameters from one end of the domain to the other; for surfaces and volumes exactly the edges of the domain, each as such a polyline, and every edge at least once. plt.surface draws a surface by its points on an equally spaced grid over the whole domain; plt.surface and plt.volume draw a volume by its six faces, in the order (axis 0, low), (axis 0, high), (axis 1, low), ...; plt.plot draws curves, surfaces and volumes in this way. For curves nothing is handed to surf3d, for surfaces and volumes nothing to line3d.", "quantifier": "all valid objects of dimension 1-3 (clamped or not) whose end sections can be extracted, all numbers of points >= 1", "why_tests_cant": "Plotting tests only check that calls do not raise; which points of the object the arrays hold depends on transposes and recursion over boundaries for every dimension, degree and knot vector.", "anchors": ["igakit/plot.py:Plotter.curve", "igakit/plot.py:Plotter.surface", "igakit/plot.py:Plotter.volume", "igakit/plot.py:Plotter.plot"]}
{"id": "C64", "title": "Knot lines, knot surfaces, knot points and control points drawn", "statement": "plt.kwire draws, for each axis asked for and in that order, exactly one line for each choice of a break on each of the other axes; the line runs along the axis through the points of the object at equally spaced parameters. plt.ksurf draws for each axis and each break on it the section there. plt.kpoint draws the points at all combinations of breaks, plt.cpoint the control points (divided by the weights). With a negative axis number other than -1 kwire draws wrong lines.", "quantifier": "all valid objects of dimension 1-3, all axes arguments (none, one, list), all numbers of points >= 1; kwire for axis numbers >= 0 and -1; ksurf for all axis numbers and objects whose sections at the breaks can be extracted", "why_tests_cant": "The lines come from a rollaxis and a reshape of a full grid of points; mixed up lines look plausible and appear only for some axis numbers, dimensions and numbers of breaks.", "anchors": ["igakit/plot.py:Plotter.kwire", "igakit/plot.py:Plotter.ksurf", "igakit/plot.py:Plotter.kpoint", "igakit/plot.py:Plotter.cpoint"]}
{"id": "C65", "title": "Both backends draw the same segments, polygons and points", "statement": "For grids of points with one, two or three axes, the matplotlib and the mayavi backend of line3d draw exactly the segments between neighbouring points of each grid, and all numbers of points handed to mayavi exist (offsets of later grids included). surf3d of both draws exactly the cells of two-dimensional grids, with the same corners in the same order. points3d of matplotlib draws all points of a grid. So cwire draws exactly the control net in both. plt.points accepts points with one, two or three coordinates, missing ones are zero, and rejects others. ksurf of a surface draws nothing (its sections are curves).", "quantifier": "all lists of grids of any sizes (at least two points on each axis for mayavi grids with two or three axes), all control nets", "why_tests_cant": "Which pairs and quadruples of numbers come out depends on all sizes of all grids handed over at once.", "anchors": ["igakit/plot_mpl.py:line3d", "igakit/plot_mpl.py:surf3d", "igakit/plot_mpl.py:points3d", "igakit/plot_myv.py:_extract_grid_lines", "igakit/plot_myv.py:_extract_grid_polys", "igakit/plot.py:Plotter.cwire", "igakit/plot.py:Plotter.points"]}
{"id": "C66", "title": "Variation diminution: a curve does not wiggle more than its control polygon", "statement": "Call a curve with positive weights at parameters in increasing order. For every plane (any linear combination of coordinates and fields, compared with any number), the sequence of returned points changes sides at most as often as the sequence of control points (divided by their weights). So a coordinate, a field or a linear combination of them that never decreases along the control polygon never decreases along the curve.", "quantifier": "all valid curves of any degree, knots (clamped or not, interior knots of any multiplicity) and positive weights, all numbers of parameters in increasing order (repetitions and both ends allowed), all linear functionals", "why_tests_cant": "It ranges over all planes and all sets of parameters at once; an evaluation that is slightly wrong in one span can still pass through the expected points.", "anchors": ["igakit/nurbs.py:NURBS.__call__", "igakit/igalib.f90:BSp.Evaluate1"]}
{"id": "C67", "title": "Clamped ends: corner values, boundary nets and end tangents", "statement": "At a corner where every axis is clamped (the end knot occurs degree+1 times) a call returns the outermost control point and its fields exactly. The boundary object of a clamped axis end has the outermost layer of the control net as its control net, unchanged, and the knots of the other axes. At a clamped corner the gradient along an axis points from the outermost to the next control value of that axis: it is degree / (signed length of the outermost knot span) * (next weight / outermost weight) * (next value - outermost value).", "quantifier": "all valid objects (corner: up to three axes; boundary: any number of axes and any spelling of the axis; gradient: one to three axes, positive weights, any fields), every combination of ends, all degrees and interior knots", "why_tests_cant": "End interpolation and end tangents are used to glue objects; an off-by-one in the span search at the right end, or in the one-sided derivative, only shows at exactly these parameters and for particular degrees and weights.", "anchors": ["igakit/nurbs.py:NURBS.__call__", "igakit/nurbs.py:NURBS.boundary", "igakit/nurbs.py:NURBS.gradient", "igakit/igalib.f90:CurvePntByCornerCut"]}
{"id": "C68", "title": "Assembly over the elements of a patch gives the exact matrices", "statement": "Matrices and vectors assembled in the usual loops from the arrays of iga.BasisData (elements, points, local functions; global number O[e]+a) are the integrals over the domain: for a function that is a polynomial of degree at most 2q-1 inside every span the weighted sum over all points is its integral; the assembled entry i, j for any numbers of derivatives is the integral of the product of the derivatives of the B-splines i and j; the assembled load is the integral of the B-spline times the function. With at least degree+1 points the assembled mass matrix is symmetric, banded and positive definite.", "quantifier": "all valid knot vectors whose nonempty spans are longer than the tolerance, all degrees and 1 to 10 points with the stated degree condition, all functions, all pairs of B-splines, all numbers of derivatives", "why_tests_cant": "A wrong Jacobian, offset or pairing of nodes and weights on a particular pattern of repeated knots changes the matrices only for such knots; tests compare a handful of knot vectors with other quadratures up to a tolerance.", "anchors": ["igakit/igalib.f90:BasisData", "igakit/igalib.f90:GaussLegendreRule"]}
{"id": "C69", "title": "Transform objects do not disturb each other", "statement": "transform objects behave like values: whatever sequence of transform(...), copy, clone, inverse, invert, compose, translate, move, scale and rotate is called on any of them (also after exceptions), every call changes the map of its own object only and the results are those of matrices owned by one object each; an exception changes nothing. This still holds when entries of t.matrix are assigned, as long as clone is not used; clone shares the entries, so an assignment to an entry of a clone shows in the original.", "quantifier": "all programs (sequences of statements of any length on any number of objects), all matrices, displacements, factors, angles and axes", "why_tests_cant": "Aliasing depends on the history of calls; a test sees a few histories, and an in-place operation inside one method would only show through an object cloned earlier.", "anchors": ["igakit/transform.py:transform.__init__", "igakit/transform.py:transform.copy", "igakit/transform.py:transform.clone", "igakit/transform.py:transform.inverse", "igakit/transform.py:transform.invert", "igakit/transform.py:transform.compose"]}
{"id": "C70", "title": "The functions of cad.py leave their arguments alone", "statement": "compat, extrude, revolve, ruled, sweep, coons, join and refine never change an object or an array that existed before the call, also when they raise, and whatever arrays the arguments share with each other (the same object may be passed twice); the numbers of the new object, or the exception, depend only on the numbers of the arguments. The result of refine shares no array with anything, so that later changes to it cannot reach the argument; the results of extrude and sweep keep the knot arrays of their arguments, so that a knot assigned in place is seen by both.", "quantifier": "all states of the program (any sharing of arrays between objects), all arguments; for the sharing statements all later programs", "why_tests_cant": "The functions clone their arguments and then call methods that change the clones; whether this reaches the argument depends on which methods assign in place and on what was shared before. Tests compare results, and at most one aliasing situation.", "anchors": ["igakit/cad.py:compat", "igakit/cad.py:extrude", "igakit/cad.py:revolve", "igakit/cad.py:ruled", "igakit/cad.py:sweep", "igakit/cad.py:coons", "igakit/cad.py:join", "igakit/cad.py:refine"]}
{"id": "C71", "title": "Rounding errors of the basis functions", "statement": "Computed in floating point, EvalBasisFuns returns finite nonnegative numbers for all valid knot vectors and parameters in the domain: no division by zero can occur, also not when differences of knots are subnormal (nothing may overflow). When nothing underflows, each value has a relative error of at most 6p roundings with respect to the exact B-spline, and the sum differs from one by at most as much. With exact arithmetic the floating point model gives the exact model. The values at a clamped end are not exactly 1 and 0.", "quantifier": "all roundings that are monotone and exact on the floating point numbers (sign), all roundings with a relative error bounded by delta (error), all valid knot vectors, degrees, parameters", "why_tests_cant": "A test compares a few values with a tolerance; which tolerance is right for which degree, and whether some pair of adjacent floating point knots produces 0/0, cannot be sampled.", "anchors": ["igakit/igalib.f90:BasisFuns", "igakit/igalib.f90:EvalBasisFuns"]}
{"id": "C72", "title": "Rounding errors of evaluated points and fields", "statement": "A NURBS object of dimension up to three with positive weights, called in floating point at parameters of its domain, returns finite points and fields whose distance to the exact values, component by component, is at most 2m+1 roundings of the largest absolute value of that component over the control points, where m = 6(p_1+...+p_d) + d + (p_1+1)...(p_d+1).", "quantifier": "all roundings with a relative error bounded by delta, all valid knots, control nets with positive weights, grids of parameters, components", "why_tests_cant": "The error depends on degrees, weights and knots; tests use a tolerance chosen by trial for a handful of shapes.", "anchors": ["igakit/nurbs.py:NURBS.__call__", "igakit/igalib.f90:Evaluate1", "igakit/igalib.f90:Evaluate2", "igakit/igalib.f90:Evaluate3"]}
{"id": "C73", "title": "Rounding errors of knot insertion", "statement": "bsp.InsertKnot in floating point, at a parameter strictly inside the domain and r times with r + multiplicity <= p: the new knot vector is exact; each component of the new control points is finite and defines a curve within 8r roundings of the largest absolute value of that component; positive weights stay positive and inside their old bounds up to 3r roundings; the curve in space moves by at most 2 B hi/lo times (8r roundings) (1 + 3r roundings) for weights in [lo, hi] and control points of size at most B.", "quantifier": "all monotone roundings with relative error at most delta which keep 1 and do not round values of at least epsilon below it, all valid knots, nets, parameters, multiplicities", "why_tests_cant": "Whether refinement preserves a shape to working precision depends on the cancellation in 1 - alpha and on the ratio of weights; tests use a few benign cases.", "anchors": ["igakit/igalib.f90:InsertKnot", "igakit/igalib.f90:FindMult"]}
{"id": "C74", "title": "Rounding of remapped and reversed knots", "statement": "In floating point, nrb.remap(axis, c, e) changes only the knots of the axis; they stay floating point numbers in ascending order, the domain begins exactly at c, and each knot is within one rounding of its size plus six of its distance from c of the affine image of the old knot; the domain ends exactly at e when both lengths and their quotient are floating point numbers. nrb.reverse(axis) reverses the control points, keeps the knots ascending, reflects each within one rounding of its size plus two of the sum of the ends, and keeps the ends of the domain when their sum is a floating point number. Both keep the object valid when its first and last spans are long against these errors. On a domain that begins at zero three reversals equal one. What does not hold: the far end of a remapped domain and both ends of a reversed one may be missed (evaluation there is then rejected), reversing twice may change knots, and very close knots may be merged.", "quantifier": "all monotone roundings exact on the floating point numbers, with relative error at most delta where a bound is claimed; all valid objects, axes and targets; witnesses in double precision", "why_tests_cant": "Tests remap between intervals like [0,1] and [0,2] for which the arithmetic happens to be exact; which ends are hit exactly depends on the bits of the quotient.", "anchors": ["igakit/nurbs.py:remap", "igakit/nurbs.py:reverse", "igakit/nurbs.py:__call__"]}
{"id": "C75", "title": "Generated knots in floating point", "statement": "iga.KnotVector(E,p,C,Ui,Uf) in floating point, open or wrapped: the domain is exactly [Ui, Uf], the interior breaks are within one rounding of their size plus four of the length of their exact places, in strictly ascending order, each repeated p-C times, with no other knots inside, and the domain has exactly E nonempty spans, as long as a span is longer than twice that error; the open vector is exactly clamped; the wrapped knots are the rounded shifts by one period of the knots they repeat, and are in order. cad.refine inserts as many knots as in exact arithmetic, each in the same closed element and within the same error. The spans are not equal and knots need not be the double next to i/E.", "quantifier": "all roundings as in C74, all E, p, C with 0 <= C < p, all intervals satisfying the spacing condition; all break lists, multiplicities and refinement factors", "why_tests_cant": "Whether Ui + i*dU can pass the next knot or the end of the domain for some number of elements cannot be excluded by trying numbers of elements.", "anchors": ["igakit/igalib.f90:KnotVector", "igakit/cad.py:refine"]}
{"id": "C76", "title": "Greville abscissae in floating point", "statement": "bsp.Greville and nrb.greville in floating point give ascending values within p+1 roundings of the means of the knots (measured by the mean absolute value). For degrees 1 and 2 they stay between the knots they are computed from, so inside a clamped domain with both ends hit exactly; for higher degrees they do so if the multiples of the ends up to the degree are floating point numbers (small integers for instance). Otherwise they may leave the domain: for a cubic on [0, 0.1] the last value is above 0.1 and evaluating the object at its own Greville abscissae is rejected.", "quantifier": "all roundings as in C74, all valid knot vectors and degrees; witness in double precision", "why_tests_cant": "The failure needs a particular end of the domain and degree; tests use [0,1].", "anchors": ["igakit/igalib.f90:Greville", "igakit/nurbs.py:greville", "igakit/nurbs.py:__call__"]}
{"id": "C77", "title": "The compiled routines stay inside their arrays", "statement": "Every array element read or written by the compiled routines during insert, refine, slice, clamp, unclamp, extract, boundary, elevate, remove, evaluation of fields, spans, breaks with multiplicities, greville, KnotVector and the basis function calls lies within the declared bounds of its array (including the work arrays of fixed size and both operands of compound loop conditions), and every loop ends; with these checks the routines give the same result or the same exception as without. This holds for insert, spans, breaks, greville and KnotVector with every object and all arguments; for clamp, unclamp, extract, boundary and evaluation whenever each axis has more control points than its degree; for refine and slice on valid objects; for elevate on clamped axes with interior multiplicities up to the degree; for remove when no knot is within the tolerance of the value without being equal to it. Outside of this the code does leave its arrays: shown by calls that pass every check of the interface.", "quantifier": "all objects, sizes, degrees, knots, control points and arguments within the stated classes; all initial contents of work arrays", "why_tests_cant": "An access one element outside a Fortran array usually goes unnoticed (the value read is multiplied by zero or falls into padding), and whether indices stay in range depends on all of degree, multiplicities and position.", "anchors": ["igakit/igalib.f90:bspline", "igakit/igalib.f90:BSp", "igakit/igalib.pyf", "igakit/nurbs.py"]}
{"id": "C78", "title": "Derivative arrays: every derivative in its place, nothing outside", "statement": "gradient, hessian and derivative of order 1 to 4 with one, two or three parameters, run with their loops, work arrays and column-major storage, end with the same exception as the mathematical description, or return an array in which, for every grid point, every list of directions and every component, the element at that position is the value of that derivative: the partial derivative of the rational field for orders up to three at parameters that are no knots. No access leaves an array, whatever the memory held before, as soon as each axis has more control points than its degree; the work arrays reused from one grid point to the next carry nothing over.", "quantifier": "all objects with one to three parameters, degrees, knots, weights, fields (own, given, default), grids, orders 1 to 4, mapped or not; all initial contents of the work arrays and of the output", "why_tests_cant": "Twelve routines with reshaped work arrays: an exchanged index or an entry left from the previous grid point is invisible for symmetric examples, and out-of-bounds accesses of work arrays usually go unnoticed.", "anchors": ["igakit/igalib.f90:TensorProd1", "igakit/igalib.f90:Rationalize", "igakit/igalib.f90:Interpolate", "igakit/igalib.f90:GeometryMap", "igakit/igalib.f90:Gradient1", "igakit/igalib.f90:FourthDer3", "igakit/nurbs.py:NURBS.derivative"]}
{"id": "C79", "title": "Quadrature data: arrays completely and correctly filled", "statement": "iga.BasisData on a valid knot vector whose nonempty spans are longer than the machine epsilon, and iga.BasisDataCol at points of the domain, run with their loops and arrays, raise the same exception as the mathematical description or fill every element of every output array with the described value (offsets, Jacobians, weights, points, derivatives of the basis functions), although the local array of basis values is reused for all points; no access leaves an array. BasisDataCol stays inside its arrays for all arguments. With a nonempty span not longer than the machine epsilon BasisData uses an offset that was never assigned and can leave the knot vector: shown on knots 0 0 2^-53 1 1.", "quantifier": "all valid knot vectors, degrees, numbers of derivatives and points; all initial contents of the arrays", "why_tests_cant": "Whether an output element is left unassigned depends on how two different criteria count the spans (exact inequality and epsilon); freshly allocated memory is often zero, which hides it.", "anchors": ["igakit/igalib.f90:BasisData", "igakit/igalib.f90:BasisDataCol", "igakit/igalib.f90:CountSpans", "igakit/igalib.pyf"]}
{"id": "C80", "title": "Interpolation is uniquely solvable", "statement": "For increasing points of the domain, one for each control point, the collocation matrix (iga.BasisDataCol: offsets and values) has no negative minor, and it is invertible exactly if basis function number e does not vanish at point number e for any e; then any values (in any vector space) are taken by exactly one spline. The Greville abscissae of a knot vector clamped at both ends satisfy this exactly if no interior knot has a multiplicity above the degree. For an object with such knots on all axes any data on the grid of the abscissae returned by greville(axis) belong to exactly one control net, and two objects with the same knots and positive weights which return the same points and fields when called there have the same control points.", "quantifier": "all valid knot vectors (any degree, repeated knots, clamped or not), all increasing points of the closed domain, all data, all choices of rows and columns, all dimensions", "why_tests_cant": "Invertibility for every choice of points is a statement about all matrices of all sizes; tests see only that particular systems could be solved.", "anchors": ["igakit/igalib.f90:Greville", "igakit/igalib.f90:BasisDataCol", "igakit/nurbs.py:NURBS.greville", "igakit/nurbs.py:NURBS.__call__"]}
{"id": "C81", "title": "Each plotter has its own backend, chosen once and imported once", "statement": "use(name) knows exactly seven names (mpl, matplotlib, myv, mayavi, nul, null, none); another name is a ValueError, a failing import raises its exception, and in both cases no plotter changes. A plotter without a backend takes mayavi when it first needs one, and matplotlib exactly if mayavi cannot be imported; if neither can, it stays without. In every history of a session (new plotters, use, attribute access, drawing, with any exceptions in between) a backend is successfully imported at most once and never imported again after that, every plotter's backend has been imported, selecting a backend for one plotter never affects another, and everything a plotter draws goes to the backend last selected for it.", "quantifier": "all histories of any length with any number of plotters, all names, all outcomes of imports and of library calls, all options, all objects drawn", "why_tests_cant": "Tests run in one installation, where an import either works or not, and see a few call orders; shared class attributes can leak between plotters in others.", "anchors": ["igakit/plot.py:Plotter.set_backend", "igakit/plot.py:Plotter.get_backend", "igakit/plot.py:Plotter.use", "igakit/plot.py:Plotter.__init__", "igakit/plot.py:Plotter.__getattr__"]}
{"id": "C82", "title": "What a backend receives", "statement": "With a backend selected each drawing method makes exactly the calls it should, at the backend's resolution and in order: plot of a curve one line through evenly spaced points of it, of a surface one net, of a volume its six faces; cplot and kplot points and lines; every option of the user is passed on unchanged except mode, colour, representation and (for lines) tube_radius, which are set as documented: default colours, a colour None meaning no colour for curves and surfaces, mode line or tube becoming a representation. Another mode for lines is an AssertionError with nothing drawn (cplot and kplot: after the points). The matplotlib backend has no quiver: AttributeError, nothing drawn. Of what the plotter adds only colours reach matplotlib; of the options of the user, mode of surfaces, tube_radius of points and scale_factor of lines do reach it although it does not know them.", "quantifier": "all valid curves, surfaces and volumes, all option dictionaries, all three backends, all states of the session", "why_tests_cant": "Drawings are looked at, not checked; combinations of options, methods and backends are too many to try.", "anchors": ["igakit/plot.py:Plotter", "igakit/plot_mpl.py:points3d", "igakit/plot_mpl.py:line3d", "igakit/plot_mpl.py:surf3d", "igakit/plot_nul.py"]}
{"id": "C83", "title": "New control points are averages of the old ones", "statement": "Start with a valid object and call insert, refine, clamp, elevate, remap, reverse, swap, transpose and transform any number of times in any order, some of the calls possibly raising: every new homogeneous control point is an average (convex combination) of the original ones multiplied by the product of the matrices, that is, every convex set that contains these contains the new ones. Without transform, and with positive weights: weights stay positive and between the smallest and the largest old weight, and the new control points in space and the new field values stay in every convex set (box, half space) that contains the old ones. The same holds for slice, extract and boundary. It does not hold for unclamp: positive weights can become negative.", "quantifier": "all valid objects with inner multiplicities at most the degree, all histories of tame calls of any length, all convex sets, all scratch memory", "why_tests_cant": "Tests evaluate the surface, which cannot show that the coefficients are averages: the representation in the new knots is unique, but its positivity concerns every knot vector and every order of calls. The elevation routine computes with subtractions (knot removal), so positivity of its result is not visible from its steps.", "anchors": ["igakit/nurbs.py:NURBS.insert", "igakit/nurbs.py:NURBS.refine", "igakit/nurbs.py:NURBS.clamp", "igakit/nurbs.py:NURBS.elevate", "igakit/nurbs.py:NURBS.slice", "igakit/nurbs.py:NURBS.extract", "igakit/nurbs.py:NURBS.boundary", "igakit/igalib.f90:DegreeElevate"]}
{"id": "C84", "title": "NaN and infinite values", "statement": "The search for a knot span ends, with an existing span, for every parameter and every knot array, sorted or not and with NaN and infinities anywhere, after at most as many rounds as the number of spans can be halved. insert, remove, refine, slice, extract and all evaluating methods let exactly those parameters pass that are numbers of the domain: one NaN or infinity among the values gives an AssertionError before anything is computed. An object whose domain has a NaN as an end accepts no parameter at all. remap rejects NaN, but accepts infinite ends and then stores a knot vector whose domain begins with NaN.", "quantifier": "all parameters, all lists of parameters of any length, all knot arrays with all special values", "why_tests_cant": "A loop that never ends for some rare input, or a NaN slipping through a comparison, is not found by trying numbers; comparisons with NaN make min, max, sort and chained comparisons behave unlike ordered numbers.", "anchors": ["igakit/igalib.f90:FindSpan", "igakit/nurbs.py:NURBS.insert", "igakit/nurbs.py:NURBS.remove", "igakit/nurbs.py:NURBS.refine", "igakit/nurbs.py:NURBS.slice", "igakit/nurbs.py:NURBS.extract", "igakit/nurbs.py:NURBS.__call__", "igakit/nurbs.py:NURBS.evaluate", "igakit/nurbs.py:NURBS.remap"]}
{"id": "C85", "title": "Parts of objects", "statement": "Slicing can be composed: slicing a slice gives the knots and control points of slicing at once; slicing again at the same values, or slicing the whole of a clamped axis, changes nothing; slices on different axes commute; a section (extract) on another axis commutes with a slice; the end faces of a slice are the sections of the object there, and two slices that meet have the same face at the cut; slicing a refined object gives the refined slice, whatever the calls of insert and refine and their order.", "quantifier": "all objects of any dimension, all degrees, knots, control points, intervals, axes, all lists of refining calls on both sides", "why_tests_cant": "The equalities hold for all intervals, also those that end at knots of any multiplicity or cut inside spans, and for histories of calls of any length; tests compare some evaluations of some slices.", "anchors": ["igakit/nurbs.py:NURBS.slice", "igakit/nurbs.py:NURBS.extract", "igakit/nurbs.py:NURBS.boundary", "igakit/nurbs.py:NURBS.refine", "igakit/nurbs.py:NURBS.insert"]}
{"id": "C86", "title": "Derivatives follow the object", "statement": "Derivatives (gradient, hessian, derivative up to order three) depend only on the map, not on its representation: two objects that agree where both are defined give the same derivatives and the same mapped gradients at common parameters, knots included. Hence inserting, refining, elevating, clamping and unclamping change no derivative; a slice has the derivatives of the object, and a section those in the remaining directions. After any history of calls, reverse, swap, transpose, remap and transform among them, derivatives obey the chain rule: those of fields are divided by the factors of the parameter change, in the permuted directions, and those of coordinates are also multiplied by the affine matrix applied; mapped gradients do not notice changes of the parameters.", "quantifier": "all real objects of dimension one to three, all degrees, knots, positive weights, all histories of tame calls, all grids of parameters, all directions, all contents of scratch memory", "why_tests_cant": "Derivatives of rational maps of every order involve quotient rules over different bases before and after; that they agree for all knots, degrees and histories, and from which side at knots, is not settled by comparing some values.", "anchors": ["igakit/nurbs.py:NURBS.gradient", "igakit/nurbs.py:NURBS.hessian", "igakit/nurbs.py:NURBS.derivative", "igakit/igalib.f90:Rationalize", "igakit/nurbs.py:NURBS.slice", "igakit/nurbs.py:NURBS.extract", "igakit/nurbs.py:NURBS.elevate", "igakit/nurbs.py:NURBS.remap", "igakit/nurbs.py:NURBS.reverse"]}
{"id": "C87", "title": "Control nets converge under refinement", "statement": "Inserting knots, refining and clamping, any number of times in any order, keeps the divided differences of neighbouring control points within every convex set that contains the original ones (so monotone or bounded differences stay so). Hence for every object there is a constant such that, however knots were added, every control point is within the constant times the largest knot distance of the object at all parameters where the control point acts, in homogeneous and, with positive weights, in projected coordinates. Every control point acts somewhere and at every parameter some control point acts.", "quantifier": "all valid objects of any dimension, degrees and components, all sequences of insert, refine and clamp calls including rejected ones, all knot distances, all parameters and control points", "why_tests_cant": "A rate that holds with one constant for all refinements, uniform over all parameters and sequences of calls, is a statement about infinitely many nets; samples show single nets.", "anchors": ["igakit/nurbs.py:NURBS.insert", "igakit/nurbs.py:NURBS.refine", "igakit/nurbs.py:NURBS.clamp", "igakit/igalib.f90:InsertKnot", "igakit/igalib.f90:RefineKnotVector"]}
{"id": "C88", "title": "Cut and rejoin", "statement": "Slicing an object at a value u of one axis, remapping the second piece so that its parameters begin at 0, and joining the pieces gives back the object: same domain, degrees and components, the same knots away from the cut and on the other axes, and the same map up to (degree-1) times 1e-9 times the absolute value of the last coordinate at the end of the cut. For a clamped object whose last coordinates are not negative no more copies of u stay than the object had (one if it had none), and if u was no knot or a simple knot, the result has exactly the knots and control points of the object with u inserted as a simple knot.", "quantifier": "all valid real objects of any dimension and degrees, clamped on the other axes with knots apart by more than eps, all axes, all values u inside the domain apart from the other knots, all contents of uninitialised memory", "why_tests_cant": "A round trip through knot insertion, slicing, remapping, compat, concatenation and knot removal over all objects; a test sees single objects and cannot tell the tolerance of removal from an error.", "anchors": ["igakit/cad.py:join", "igakit/nurbs.py:NURBS.slice", "igakit/nurbs.py:NURBS.remap", "igakit/nurbs.py:NURBS.remove"]}
{"id": "C89", "title": "Degree elevation in 32 bit integers", "statement": "Elevating the degree of an axis to a final degree of at most 29 gives the same result as with unbounded integers, for every object and argument, so the object keeps its map. From final degree 30 on the 32 bit binomial coefficients of the elevation overflow. At final degree 30 with wrapping arithmetic, an object with one span on the axis gets wrong control points: a component with constant value w (a unit weight, say) becomes -(155117520/131213633) w at control point 15, and the map of the object is another one.", "quantifier": "all objects of any dimension, all axes and numbers of elevations, all contents of uninitialised memory; the wrong result for all splits p+t=30 with p,t at least 1", "why_tests_cant": "Tests elevate to small degrees, where nothing overflows; that every intermediate product stays in range up to 29 and none of the degrees above does is a statement on all degrees, objects and tables.", "anchors": ["igakit/igalib.f90:Bin", "igakit/igalib.f90:DegreeElevate", "igakit/nurbs.py:NURBS.elevate"]}
{"id": "C90", "title": "Rounding errors of refinement and of histories", "statement": "In floating point arithmetic, knot refinement computes the knots exactly, and its control points differ from control points of the same exact map by at most growth^(8k)-1 times the largest control value of the component, where k is the number of inserted knots and growth=(1+d)/(1-d) for rounding unit d. Positive weights stay positive and within 3k roundings of their range. The bounds add over any sequence of insertions and refinements on any axes, whatever the calls: after k knots in all, the machine object has the same domain and degrees, its map lies within growth^(8k)-1 of the original one, and evaluating it in machine arithmetic yields points within the sum of both errors of the exact points.", "quantifier": "all objects of any dimension, sequences of insert/refine calls, values inside the domain, roundings with relative error d, evaluation grids, contents of uninitialised memory", "why_tests_cant": "A test measures the error of one object for one history on one machine; the bound has to hold for all of them, and a history mixes the errors of one call with the exactness of the next.", "anchors": ["igakit/igalib.f90:RefineKnotVector", "igakit/nurbs.py:NURBS.insert", "igakit/nurbs.py:NURBS.refine", "igakit/nurbs.py:NURBS.__call__"]}
{"id": "C91", "title": "Rounding errors of parts, sections, clamping and of histories over dimensions", "statement": "In floating point arithmetic, slice, clamp, extract and boundary copy or choose knots exactly and combine control points only as often as knots are missing for full multiplicity at the ends or at the section: with k missing knots the result lies within growth^(8k)-1 times the largest control value of the exact part or section, and positive weights stay positive and within 3k roundings of their range. In particular the boundary of a clamped axis is exact on every machine. Over any history of insertions, refinements, slices, clampings, sections, boundaries and exchanges of axes, with objects of different dimensions, the counts add up, and evaluating the result on the machine gives points within the sum of both errors of the points of the original object at the corresponding parameters.", "quantifier": "all objects of any dimension, sequences of calls, parts, sections, roundings with relative error d, evaluation grids, contents of uninitialised memory", "why_tests_cant": "A test sees one history on one machine; the bound, and the exactness of clamped boundaries, must hold for every object, every rounding and every order of calls.", "anchors": ["igakit/igalib.f90:CurvePntByCornerCut", "igakit/igalib.f90:ClampKnot", "igakit/nurbs.py:NURBS.slice", "igakit/nurbs.py:NURBS.clamp", "igakit/nurbs.py:NURBS.extract", "igakit/nurbs.py:NURBS.boundary", "igakit/nurbs.py:NURBS.swap"]}
{"id": "C92", "title": "Matrices and volumes assembled over surfaces and solids", "statement": "A program that takes the quadrature data of every axis and loops over elements, quadrature points and local functions of the tensor product (as the demo programs do) integrates every function that is a polynomial on each element, of degree below twice the number of points in each direction, up to a relative error of 1.5e-36 per direction. The assembled matrix entries are, up to that error, the integrals of the products of (derivatives of) the tensor product functions; the mass matrix is symmetric, positive semidefinite, and positive definite with at least degree+1 points; the local sums at the points are the true partial derivatives of the field; and the summed determinants give the signed length, area or volume of objects without weights. Two objects with the same map (after insertion or elevation) get the same volume up to both errors, although their elements differ.", "quantifier": "all dimensions, knot vectors, degrees, numbers of points up to ten, control points, orders of derivatives, contents of uninitialised memory", "why_tests_cant": "A test assembles a few patches; exactness must hold on every knot vector and in every dimension, and the error of the tabulated points must be bounded for every integrand of the class.", "anchors": ["igakit/igalib.f90:BasisData", "igakit/igalib.f90:Legendre", "demo/conformal.py:ConformalProjectionError"]}
{"id": "C93", "title": "The conformality error of a surface", "statement": "ConformalProjectionError(srf) of the demo programs returns the square root of the integral of (dx/du-dy/dv)^2+(dx/dv+dy/du)^2 over the domain of the surface, up to the error of the quadrature.", "quantifier": "all surfaces of degree up to nine, knot vectors, control points, weights, contents of uninitialised memory", "why_tests_cant": "On square elements and without weights the number is right, so tests with the usual unit square pass; the claim for all surfaces is false, by factors that only a proof determines.", "anchors": ["demo/conformal.py:ConformalProjectionError", "igakit/igalib.f90:BasisData"]}
{"id": "C94", "title": "The quasi-conformal projection is the surface of least conformality error", "statement": "QuasiConformalProjection(srf) of the demo programs returns a surface with the knots, weights, remaining coordinates and boundary control points of srf, and no surface with the same knots, weights and boundary control points has a smaller ConformalProjectionError, whatever uninitialised memory contains in each call. For equal weights on clamped continuous knot vectors the linear system is always regular, so a surface is returned, and it is the only one of least error: any other choice of the first two coordinates inside has a strictly larger error.", "quantifier": "all surfaces of degree up to nine, knot vectors, control points, positive weights (solvability and uniqueness: equal weights), all competing surfaces, contents of uninitialised memory of every call", "why_tests_cant": "Minimality is a comparison with infinitely many surfaces, and regularity of the assembled matrix for every knot vector cannot be sampled.", "anchors": ["demo/conformal.py:QuasiConformalProjection", "demo/conformal.py:ConformalProjectionError", "igakit/igalib.f90:BasisData"]}
{"id": "C95", "title": "InsertUniformly cuts every span into the fewest equal dyadic parts", "statement": "InsertUniformly(U, n) of the venturi demo, for sorted knots and n >= 1, returns after at most ceil(log2 n)+1 rounds of its loop. Every span of U is cut into 2^k equal parts with the least k that makes the parts no longer than (max-min)/n; the returned values are exactly the new points, strictly increasing, strictly inside, none of them in U, more than half the bound away from every other knot, and fewer than 2n-1 in number; the smoothing passes change nothing. Refining a clamped axis with them keeps the map and leaves no span longer than (max-min)/n. For a single span the result has 2^ceil(log2 n) spans, not n; for n < 0 the loop does not end.", "quantifier": "all sorted knot lists, all n, all tolerances >= 0, all numbers of rounds; for the refinement all valid objects of any number of axes", "why_tests_cant": "Termination, the exact set of inserted knots and the absence of any effect of smoothing hold for every knot vector; a test sees one.", "anchors": ["demo/venturi.py:InsertUniformly", "igakit/nurbs.py:NURBS.refine"]}
{"id": "C96", "title": "extrude, sweep and revolve do not depend on the coordinate frame", "statement": "Moving an object with any affine map and extruding it along the moved direction gives the moved extrusion, knot for knot and control point for control point. The same holds for sweep, the trajectory being moved by the linear part. Revolving an object moved by any isometry about the moved point and axis (axis reversed for a reflection) gives the moved object of revolution: same knots, same weights, corresponding points at every parameter, whatever helper frame is chosen for the axis and whatever the uninitialised memory holds.", "quantifier": "all valid objects of up to two axes, all affine maps (revolve: all isometries), all forms of the displacement and axis arguments, all angles except none and those of two full turns or more", "why_tests_cant": "A test compares one object in one frame; invariance is a statement about all maps and all objects at once.", "anchors": ["igakit/cad.py:extrude", "igakit/cad.py:sweep", "igakit/cad.py:revolve", "igakit/nurbs.py:NURBS.transform"]}
{"id": "C97", "title": "ruled and coons do not depend on the coordinate frame", "statement": "The ruled object between two objects moved by any matrix (also a projective one) is the moved ruled object, as a map with weights, on the same domain and with the same degrees. The Coons patch of four curves moved by an affine map is the moved Coons patch, whatever the corner weights, provided the corners pass the test in both frames; the test uses a fixed tolerance, so doubling the size of curves that coons accepts can make it refuse them.", "quantifier": "all compatible valid inputs, all matrices (coons: all affine ones), all parameters of the domain, all contents of uninitialised memory", "why_tests_cant": "Invariance holds for all maps and all curves, also where the patch itself does not interpolate its boundary.", "anchors": ["igakit/cad.py:ruled", "igakit/cad.py:coons", "igakit/cad.py:compat", "igakit/nurbs.py:NURBS.transform"]}
{"id": "C98", "title": "Building and refining commute, and so do building and taking sections", "statement": "Refining an extruded, swept or revolved object along the axes of its generator (and, for a sweep, along the axis of the trajectory) by any sequence of insertions and refinements gives the same shape, knots and control points as building the object from the generator refined with the same knots in any order. A section (extract) of the built object across an axis of the generator is, control point for control point, the object built from that section of the generator. The two ends of an extrusion are the object and the displaced object.", "quantifier": "all valid generators (sweep: positive weights) of admissible dimension with knots inside of multiplicity at most the degree, all displacements, trajectories, axes and angles (C36), all call sequences adding the same knots, all parameters at which sections are taken, all contents of uninitialised memory", "why_tests_cant": "Equality of control nets must hold for every generator, every order of the calls and every section parameter; this is what makes neighbouring patches built from a common edge fit.", "anchors": ["igakit/cad.py:extrude", "igakit/cad.py:sweep", "igakit/cad.py:revolve", "igakit/nurbs.py:NURBS.insert", "igakit/nurbs.py:NURBS.refine", "igakit/nurbs.py:NURBS.extract"]}
{"id": "C99", "title": "Rounding errors of transformations", "statement": "nrb.transform(M) in floating point, whatever the order of summation inside np.dot and with or without fused operations: each of the four homogeneous coordinates of a control point is within five roundings of the exact one, measured by the sum of the absolute values of its four products; fields, knots and shape are copied. A coordinate whose row of M has a single entry other than zero is exact if the product is a floating point number, so reflections, exchanges of coordinates, scalings by powers of two are exact and affine maps keep the weights. For an affine M and positive weights, the map of the transformed object stays within five roundings of the size of the transformed control points of the affine image of the map, and evaluating it in floating point stays within 2m+6 roundings (m as for evaluation). What does not hold: a transformation followed by its inverse may move points, and different orders of summation give different coordinates.", "quantifier": "all roundings with relative error at most delta, all orders and groupings of the sums, fused or not, all matrices (points: affine ones), all valid objects with positive weights, all parameters and evaluation grids; witnesses in double precision", "why_tests_cant": "The order of summation inside np.dot depends on library and hardware; a bound for all of them and all objects cannot be sampled.", "anchors": ["igakit/nurbs.py:NURBS.transform", "igakit/transform.py:transform.__call__", "igakit/nurbs.py:NURBS.__call__"]}
{"id": "C100", "title": "compat: one result, no preferred object, idempotent", "statement": "compat(n1,...,nk) has one result: shapes, degrees, knots and control points do not depend on the contents of uninitialised arrays, nor on whether an axis is written as a or a - dim. It treats its arguments alike: given in another order, they return the same objects in that order. It is idempotent: compat applied to its own results returns the same data again.", "quantifier": "all lists of at least two clamped objects, all lists of different axes, all permutations of the objects, all contents of uninitialised memory", "why_tests_cant": "All permutations of lists of any length, and all contents of memory the program does not control.", "anchors": ["igakit/cad.py:compat", "igakit/nurbs.py:NURBS.elevate", "igakit/nurbs.py:NURBS.refine", "igakit/nurbs.py:NURBS.remap"]}
{"id": "C101", "title": "Rounding errors of composed transformations", "statement": "A transform built from transform() by k calls of compose (directly or inside translate, scale, rotate), in floating point and whatever the order of summation inside np.dot: every entry of its matrix is within 5k roundings of the exact product of the k matrices, measured by the product of their absolute values, and the control points of an object transformed by it are within 5k+5 roundings of those of the exact composition. A composition of affine maps has the last row 0, 0, 0, 1 exactly, and a translation keeps the linear part to the last bit. What does not hold: composing and applying once is not the same as applying in turn.", "quantifier": "all sequences of matrices of any length, all roundings with relative error at most delta, all orders and groupings of the sums, fused or not, all objects; witness in double precision", "why_tests_cant": "Chains of any length, and every order of summation a numerical library may choose.", "anchors": ["igakit/transform.py:transform.compose", "igakit/transform.py:transform.translate", "igakit/transform.py:transform.__call__", "igakit/nurbs.py:NURBS.transform"]}
{"id": "C102", "title": "ruled and coons with their arguments exchanged", "statement": "ruled(n2, n1) is ruled(n1, n2) with the last parameter v replaced by 1 - v: same domain, degrees and homogeneous coordinates at corresponding parameters. coons(C1, C0) is coons(C0, C1) with the two parameters exchanged, up to the largest distance between ends of curves that meet in a corner, and exactly if the ends coincide; no condition on the weights.", "quantifier": "all pairs of clamped curves or surfaces (ruled), all four clamped curves with corners within 1e-15 (coons), on any domains, all parameters, all contents of uninitialised memory", "why_tests_cant": "Both calls go through merging of arbitrary degrees and knots; equality of the maps at all parameters cannot be sampled.", "anchors": ["igakit/cad.py:ruled", "igakit/cad.py:coons", "igakit/cad.py:compat"]}
{"id": "C103", "title": "What is built depends on the maps, not on their representation", "statement": "If two objects have the same domain and the same homogeneous coordinates at every parameter, whatever their degrees, knots and control points, then extrude, sweep, revolve, ruled and coons applied to the one or to the other give results with the same domain and the same homogeneous coordinates at every parameter. On objects with the same domain, compat changes representations only, so calling it before ruled or coons makes no difference to the map.", "quantifier": "all pairs of valid objects with the same map (sweep: weights not zero; revolve: axis other than -z and less than two turns; ruled, coons, compat: clamped objects as in C39), all parameters, all contents of uninitialised memory", "why_tests_cant": "Quantifies over all representations of a map and over all parameters.", "anchors": ["igakit/cad.py:extrude", "igakit/cad.py:sweep", "igakit/cad.py:revolve", "igakit/cad.py:ruled", "igakit/cad.py:coons", "igakit/cad.py:compat"]}
{"id": "C104", "title": "Rounding errors of rotations", "statement": "In floating point with relative error delta per operation (and for sin and cos), every entry of the matrix of a rotation about a coordinate axis is within one rounding of the exact entry, and about any vector within thirteen roundings measured by |cos| I + |sin| |Ux| + (1+|cos|)|u u^T|; a rotated object has its control points within 11 respectively 23 roundings of the exact ones; in chains of transformations the roundings of the matrices add up to those of the products. An axis is accepted in floating point exactly if it is accepted in exact arithmetic, unless squares underflow: a tiny nonzero vector is then refused.", "quantifier": "all angles, all axes, all chains of any length, all objects, all orders of summation and fused operations in dot products, all rounding functions of relative error below 1", "why_tests_cant": "Quantifies over all angles, axes, objects, orders of summation and roundings.", "anchors": ["igakit/transform.py:transform.rotate", "igakit/transform.py:transform.compose", "igakit/nurbs.py:NURBS.rotate"]}
{"id": "C105", "title": "Placing an object and evaluating it in floating point", "statement": "An object with positive weights is moved by a chain of affine transformations whose matrices are themselves rounded, and is then evaluated, all in floating point. The call succeeds, and each coordinate of each point differs from the exact image of the exact point by at most 2m + 6 + 5k + (m_1 + ... + m_k) roundings of the size of the result, where m depends on degrees and dimension only, k is the number of transformations and m_i the number of roundings of the i-th matrix. After rotate about a vector the points are the exact points turned about this axis, up to 2m + 24 roundings.", "quantifier": "all valid objects of dimension at most 3 with positive weights that are machine numbers, all chains of any length, all angles and axes, all parameters in the domain, all orders of summation, all rounding functions of relative error below 1 that keep 1", "why_tests_cant": "Quantifies over all objects, chains, angles, axes, parameters, orders of summation and roundings.", "anchors": ["igakit/transform.py:transform.rotate", "igakit/transform.py:transform.compose", "igakit/nurbs.py:NURBS.rotate", "igakit/nurbs.py:NURBS.transform", "igakit/nurbs.py:NURBS.__call__"]}
{"id": "C106", "title": "The full circle in floating point", "statement": "circle(radius), built and evaluated in floating point at parameters in [0,1], gives points which differ from points of the exact circle by at most 40 roundings of the radius in each of the two coordinates; the third coordinate is zero exactly. The angle of these points of the circle is a continuous increasing function of the parameter from 0 to 2 pi. The distance from the origin is the radius up to sqrt(2) times this bound. With a centre of three numbers, each coordinate differs from that of the exact circle about this centre by at most 50 roundings of radius and centre together.", "quantifier": "all radii and centres, all parameters in [0,1], all rounding functions of relative error below 1, all contents of uninitialised memory", "why_tests_cant": "Quantifies over all radii, parameters and roundings.", "anchors": ["igakit/cad.py:circle", "igakit/nurbs.py:NURBS.__call__"]}
{"id": "C107", "title": "Circular arcs in floating point", "statement": "circle(radius, angle=(start, stop)) with start different from stop and at most one turn, built and evaluated in floating point at parameters in [0,1], gives points which differ from points of the exact circle by at most 85 roundings of eight times the radius in each of the two coordinates; the third coordinate is zero exactly. The angle of these points of the circle is a continuous function of the parameter, increasing if start < stop and decreasing if stop < start; its first value differs from start by at most u(2 + |start|), its last value from stop by at most u(2 + |start|) + 3u|stop - start|, where u is the relative error of one operation. With a centre of three numbers each coordinate differs from that of the exact circle about this centre by at most 95 roundings of eight times the radius and the centre together. Without centre there is a result if and only if start differs from stop.", "quantifier": "all radii and centres, all start and stop angles at most one turn apart, all parameters in [0,1], all rounding functions of relative error at most 1/20 which keep 1 and twice a rounded number, all library functions sin, cos, tan of this relative error, all orders of summation in np.dot, all contents of uninitialised memory", "why_tests_cant": "Quantifies over all radii, angles, parameters and roundings.", "anchors": ["igakit/cad.py:circle", "igakit/transform.py:transform.rotate", "igakit/nurbs.py:NURBS.__call__"]}
{"id": "C108", "title": "Extrude and sweep in floating point", "statement": "With m = 6 times the sum of the degrees of the result plus the number of its axes plus the product of its degrees plus one: each coordinate of extrude(nrb, displ)(u, v), built and evaluated in floating point, differs from that of nrb(u) + v*displ by at most 2m + 11 roundings of the bound of the control points of nrb plus that of displ; each coordinate of sweep(section, trajectory)(u, v) differs from that of section(u) + trajectory(v) by at most 2m + 6 roundings of the sum of the bounds of both nets. Both calls give a result.", "quantifier": "all valid curves and surfaces (extrude: points too), all trajectories, positive weights, all displacements, all parameters in the domain, all rounding functions of relative error below one (extrude: which keep 1 and the weights), all orders of summation in np.dot, all contents of uninitialised memory", "why_tests_cant": "Quantifies over all nets, knots, displacements, parameters and roundings.", "anchors": ["igakit/cad.py:extrude", "igakit/cad.py:sweep", "igakit/nurbs.py:NURBS.__call__"]}
{"id": "C109", "title": "Clamped ends in floating point", "statement": "At a corner of the parameter domain at which the knots of every axis are clamped, the call returns the homogeneous control point of that corner divided by its weight with a single rounding, and with weight one exactly that control point; the same holds for fields. This needs that in every axis the length of the element at the corner, rounded, times its rounded reciprocal rounds to one, which holds for every power of two in every precision. It fails without: a double-precision segment over [0, 49] whose first control point is (1,0,0) with weight 3 does not return the rounded 1/3 at its start.", "quantifier": "all valid objects with up to three axes, all corners, all grids of parameters containing the corner, all rounding functions which are idempotent, keep 1 and have relative error below one, all contents of uninitialised memory", "why_tests_cant": "Exactness at the ends is observed on knots like [0,0,1,1], and does not hold for all lengths; the claim covers all knots, nets, degrees and precisions.", "anchors": ["igakit/nurbs.py:NURBS.__call__", "igakit/nurbs.py:NURBS.evaluate", "igakit/igalib.f90:BasisFuns"]}
{"id": "C110", "title": "Lines and multilinear patches in floating point", "statement": "line(p0, p1), built and evaluated in floating point, returns exactly p0 at 0 and exactly p1 at 1, and in between differs from the segment (1-u)*p0 + u*p1 by at most 19 roundings of the larger of the two coordinates. linear, bilinear and trilinear return exactly the given points at the corners of the domain and differ from the multilinear interpolation of these points by at most 2*(7d + 2^d) + 1 roundings of the largest coordinate. All calls give a result.", "quantifier": "all representable points with up to three coordinates, all parameters in the unit cube, all rounding functions which are idempotent, keep 1 and have relative error below one, all contents of uninitialised memory", "why_tests_cant": "Quantifies over all points, parameters and roundings.", "anchors": ["igakit/cad.py:line", "igakit/cad.py:linear", "igakit/cad.py:bilinear", "igakit/cad.py:trilinear", "igakit/nurbs.py:NURBS.__call__"]}
{"id": "C111", "title": "grid in floating point", "statement": "With m = 6 times the sum of the degrees plus the number of axes plus the product of the degrees plus one: each coordinate of grid(...)(u, v, w), knots, control points and call computed in floating point, differs from the parameter of its axis by at most 2m + p + 2 roundings of the largest knot of that axis (p its degree), which for an axis that is not wrapped is at most the larger of the two limits; the remaining coordinates are exactly zero. The domain is exactly the given interval. Construction and call give a result.", "quantifier": "one to three axes, all element counts, degrees, continuities, limits representable in floating point with elements longer than the error of the breaks, wrapped or not, all parameters in the domain, all monotone rounding functions of relative error below one, all contents of uninitialised memory", "why_tests_cant": "Quantifies over all sizes, degrees, limits, parameters and roundings.", "anchors": ["igakit/cad.py:grid", "igakit/igalib.f90:KnotVector", "igakit/igalib.f90:Greville", "igakit/nurbs.py:NURBS.__call__"]}
{"id": "C112", "title": "The constructor in floating point", "statement": "NURBS(knots, control, weights, fields) in floating point accepts the same arguments as in exact arithmetic and raises the same exceptions otherwise; shape, knots and weights are exact and every other entry is rounded at most once, so that each coordinate and field of the call, computed in floating point, differs from that of the exact rational map by at most 2m + 2 roundings of the largest coordinate or field, with m = 6 times the sum of the degrees plus the number of axes plus the product of the degrees plus one. NURBS(knots) without control points is close to the identity: each coordinate of the call differs from the parameter of its axis by at most 2m + p + 2 roundings of the largest knot of the axis, and the other coordinates are exactly zero.", "quantifier": "one to three axes, all knots, control points with 2 to 4 components, positive weights, fields, both ways of passing weights, all parameters in the domain, all rounding functions of relative error below one, all contents of uninitialised memory", "why_tests_cant": "Quantifies over all arguments, parameters and roundings.", "anchors": ["igakit/nurbs.py:NURBS.__init__", "igakit/igalib.f90:Greville", "igakit/nurbs.py:NURBS.__call__"]}
{"id": "C113", "title": "Points, weights and fields come back in floating point", "statement": "After NURBS(knots, control, weights, fields) in floating point, .weights is exactly what was given, .points and .fields differ from what was given by at most two roundings of the same entry wherever the weight is not zero, .fields is None exactly when none were given, and a representable point whose weight is one comes back exactly. Points are not returned exactly in general: the double nearest to 1/10, given with weight 3, comes back as the next double.", "quantifier": "all dimensions, knots, control points, weights, fields, both ways of passing weights, all rounding functions", "why_tests_cant": "Quantifies over all arguments and roundings.", "anchors": ["igakit/nurbs.py:NURBS.__init__", "igakit/nurbs.py:NURBS.points", "igakit/nurbs.py:NURBS.fields", "igakit/nurbs.py:NURBS.weights"]}
{"id": "C114", "title": "Signs, relative errors and boxes of points in floating point", "statement": "If a coordinate or field is negative in no control point and the weights are positive, then the call in floating point computes it with a relative error of at most 2m + 1 roundings (m = 6 times the sum of the degrees plus the number of axes plus the product of the degrees plus one): the result is never negative, it is zero only where the exact value is zero, and it lies within the bounds of the control points up to these roundings. Coordinates of any sign lie within the bounds of the control points up to 2m + 1 roundings of the larger bound.", "quantifier": "up to three axes, all valid knots, positive weights, all parameters in the domain, all rounding functions of relative error below one, all contents of uninitialised memory", "why_tests_cant": "Quantifies over all objects, parameters and roundings.", "anchors": ["igakit/nurbs.py:NURBS.__call__", "igakit/igalib.f90:Evaluate1", "igakit/igalib.f90:Evaluate2", "igakit/igalib.f90:Evaluate3"]}
{"id": "C115", "title": "Reflections, exchanges of coordinates and powers of two are exact in floating point, and memory does not matter", "statement": "The call in binary floating point gives the same numbers whatever uninitialised memory contains. If an object with representable control points is transformed by a matrix that exchanges coordinates, changes their signs and multiplies each of them by a power of two, then calling the transformed object gives, bit for bit, the numbers computed for the original object, exchanged and multiplied; fields are the same. More generally, factors that commute with the rounding can be taken out of every component, those of the weights included.", "quantifier": "up to three axes, all valid knots, control points, parameters in the domain, all orders of summation and fused operations in the transformation, all precisions, all contents of uninitialised memory", "why_tests_cant": "Quantifies over all objects, parameters, precisions and memory contents.", "anchors": ["igakit/nurbs.py:NURBS.__call__", "igakit/nurbs.py:NURBS.transform", "igakit/igalib.f90:BasisFuns", "igakit/igalib.f90:Evaluate1", "igakit/igalib.f90:Evaluate2", "igakit/igalib.f90:Evaluate3"]}
{"id": "C116", "title": "Parameters in units that differ by a power of two give the same points, bit for bit", "statement": "If the domain of an object along an axis starts at 0 and its knots are representable, `remap(axis, 0, 2**e * end)` in binary floating point multiplies every knot by 2**e exactly, and calling the remapped object at parameters 2**e times as large gives exactly the points and fields of the original object. Remapping back to the first domain restores every knot and control point. More generally, knots and parameters of each axis may be multiplied by any positive factor that commutes with the rounding. Other factors are not exact.", "quantifier": "up to three axes, all valid knots, control points, parameters in the domain, exponents, precisions, all contents of uninitialised memory", "why_tests_cant": "Quantifies over all objects, parameters, exponents, precisions and memory contents.", "anchors": ["igakit/nurbs.py:NURBS.remap", "igakit/nurbs.py:NURBS.__call__", "igakit/igalib.f90:FindSpan", "igakit/igalib.f90:BasisFuns"]}
