# Formal model of libdetran: design

The source in `/repo` (C++) was read as text; nothing was built or run.  All
Lean code is under `lean/Verif`.  Every area has

* `Verif/Model/<Area>.lean`   – the model, each definition citing file and lines;
* `Verif/Lemmas/<Area>.lean`  – helper lemmas (where they are long);
* `Verif/Props/<Area>.lean`   – specification definitions and property theorems,
  with a concrete `example` beside each theorem.

`MANIFEST.json` maps property ids to theorem names.  `seeded/LOG.jsonl` records
the deliberate model mutations tried against the theorems.

## Trusted base

* Lean 4.33.0's kernel and the Mathlib modules imported (one at a time).
* Axioms: at most `propext`, `Classical.choice`, `Quot.sound`.  No own axioms, no
  `sorry`, no `native_decide`, no `bv_decide`.
* The reading of the C++: each definition is a hand translation.

### Modelling conventions

* `double` is modelled as an exact element of an arbitrary field `K` (or linearly
  ordered field when order matters, or `ℝ` when `sqrt`/`exp` matter).  Rounding,
  NaN, infinities and overflow of doubles are **not** modelled.
* `size_t` of `detran_utilities` is `unsigned int`.  Index arithmetic is done in
  `Nat`/`Int`; where wrap-around matters (mesh numbering, sweep loops) the
  definition reduces modulo 2^32 explicitly.
* `std::vector` is `List` or a function on indices; out-of-range access, reading
  past `end()`, dereferencing a null pointer and `pop_back` on an empty vector
  are the distinct outcome `none`/`.ub` of the model, never a default value.
* `Require/Ensure/Assert` only act in debug builds (`utilities/DBC.hh`) and are
  modelled as absent (release build).  `Insist` and `THROW` are modelled as the
  outcome `error`.
* `std::sort` is not stable: results are proved for every sorting function that
  returns a sorted permutation.
* Pointers shared between objects (history slots, track segments) are modelled by
  an explicit heap where aliasing matters.
* Not modelled: PETSc, SLEPc, Boost, HDF5, Silo, OpenMP, Python bindings, printing.


## Plan per property (first sixty)

| id | what is modelled | how it is proved |
|----|------------------|------------------|
| C01 | `Mesh::index`, `cell_to_*` modulo 2^32 | div/mod algebra; overflow witness |
| C02 | `add_coarse_mesh_map` as the six nested loops over a map | loop invariant, prefix sums |
| C03 | `Mesh::setup` width arrays | induction over coarse cells |
| C04 | `find_cell` scan | induction over the scan |
| C05 | InputDB as six association maps, `put/get/check` | refinement to `Type × Key → Option Val` over histories |
| C06 | Factory map with `insert` semantics | induction over registrations |
| C07 | `range` | list equality with spec interval |
| C08, C09, C12 | COO insert overloads, `assemble` to CSR | invariant over inserts, sum over permutation; UB outcome for the empty row |
| C10 | CSR and dense multiply | double-sum exchange |
| C11 | `operator()` search | negation by witness; diagonal `_partial` |
| C13 | column-major dense storage | index injectivity |
| C14 | `SparseRow::insert` | sorted-list invariant, refinement to a map |
| C15, C16 | ILU0 construction/application, ILUT application | triangular solve induction; negations by witness for ILU0 |
| C17, C18 | Jacobi PC; one step of Jacobi, Gauss–Seidel, Richardson | fixed point iff residual zero |
| C19 | `monitor_init`, `monitor`, Richardson loop over an arbitrary residual stream | induction on loop; negation for the max-iteration report |
| C20 | `norm`, `norm_residual`, `vec_max` | fold lemmas; negations by witness |
| C21, C22 | `Material::finalize` state machine | scan invariants; negation for history independence |
| C23, C24 | scatter source loops | sum over range = sum over all groups; negation for down-scatter block |
| C25 | FissionSource update/outer/total source | sum algebra |
| C26, C27, C28 | cell equations, row/plane/box sweeps, loop index sequences | telescoping induction; order lemmas |
| C29 | octant ordering | exchange sort correctness |
| C30–C34 | octant tables, reflective/periodic update, boundary vector pack/unpack, adjoint switch | complete finite tables plus lifting, loop round-trip |
| C35, C36 | moment and angle numbering | induction over order; div/mod |
| C37 | PinCell/Assembly/Core map building | index algebra |
| C38, C58 | CSG nodes, regions | structural induction; negation for box |
| C39 | quadratic surface intersection | algebra of roots over ordered field/ℝ |
| C40 | tracks with shared segments (heap) | negations; normalisation identity `_partial` |
| C41 | CoarseMesh construction | induction; out-of-range witness |
| C42 | tally index | injectivity; witness for one-cell direction |
| C43 | State scale/clear | negation for higher moments, `_partial` for zeroth |
| C44 | Homogenize loops | sum algebra; negation for spectrum |
| C45 | LinearMaterial/LinearExternalSource interpolation | interval search lemmas |
| C46, C47, C59 | BDF table, precursor update, synthetic source/material | algebra; polynomials |
| C48 | history rotation on a heap of states | invariant over steps |
| C49 | basis transform/inverse, unfold | finite-sum algebra |
| C50–C53 | diffusion loss/gain, CMFD, restriction/prolongation | telescoping sums, symmetry |
| C54 | parser decision logic | case analysis; negations |
| C55 | ReactionRates | sum algebra; negation for mean edit |
| C56 | power iteration loop over abstract operator | induction |
| C57 | group ranges | list permutation lemmas |
| C60 | linspace, vec_unique, Reversible | induction |


## Status per property

The notes say what is missing where only part holds or is proved; the full statements are the `CxxClaim`
definitions next to the theorems.

* **C01** Mesh cell numbering is a bijection – proved, 3 theorems. Exact under the hypothesis that the cell count fits 32 bits; collision witness beyond it.
* **C02** Coarse material map reaches every fine cell – proved, 4 theorems. Includes the undefined-behaviour outcome for a coarse map that is too short, and the key lookup history.
* **C03** Fine cells subdivide the domain exactly – proved, 2 theorems. Exact arithmetic.
* **C04** Point location returns the containing cell – proved, 3 theorems. Coordinates are measured from the low corner; a mesh whose first edge is not zero is mislocated (witness).
* **C05** Input database behaves as six independent typed maps – proved, 6 theorems. Six typed maps over arbitrary put histories; get of a key stored only under another type is the undefined-behaviour outcome.
* **C06** Factory registration is first-wins and never silently replaced – proved, 3 theorems. 
* **C07** Group range enumerates the interval in travel order – proved, 4 theorems. 
* **C08** Sparse assembly preserves every inserted entry – proved, 2 theorems. Assembled from any history of single insertions with any sort of each row.
* **C09** Assembled rows are sorted and hold their diagonal – proved, 8 theorems. Square rows proved; an empty row makes assembly undefined, rows at or beyond the column count get no diagonal pointer, and a column inserted twice without ADD leaves duplicates (each stated exactly).
* **C10** Transpose multiply is the adjoint of multiply – proved, 4 theorems. Sparse and dense.
* **C11** Element access agrees with multiply – partial, 4 theorems. Diagonal reads are correct; every off-diagonal read returns 0 (negation proved).
* **C12** Insertion respects preallocated capacity – partial, 10 theorems. Single insertions: exact return values, no change on failure, capacity respected. The multi-entry forms are not atomic and triplet insertion overflows the row buffer (witnesses).
* **C13** Dense matrix storage is a faithful two-index array – proved, 4 theorems. In-range calls; the unchecked row bound aliases into the next column (stated).
* **C14** Sparse work row behaves as a finite map with sorted keys – partial, 12 theorems. Sortedness, return values and exact effect for all histories; INSERT of zero over a stored value is ignored (counterexample), so the plain-map claim is proved for histories without it. range(a,b) is neither closed nor half open (exact description proved).
* **C15** Incomplete-LU application solves the two triangular systems – partial, 3 theorems. PCILUT::apply solves the two systems. PCILU0::apply never does, for any nonzero right-hand side (proved).
* **C16** ILU(0) factors reproduce the matrix on its pattern – partial, 6 theorems. ILU(0) never updates diagonal or upper entries; exact factors for tridiagonal matrices, reproduced only if uncoupled (proved both ways); zero first pivot unnoticed.
* **C17** Jacobi preconditioner divides by the diagonal – proved, 2 theorems. 
* **C18** Stationary solvers stop only at genuine solutions – proved, 7 theorems. Jacobi, Gauss-Seidel, Richardson with and without preconditioner.
* **C19** Linear-solver status is truthful and iteration count bounded – partial, 7 theorems. Success truthful, count bounded, definite status for limit >= 2; limit 1 ends in 'running' (proved), early return leaves a stale count (proved). Model covers Jacobi, Gauss-Seidel and Richardson drivers.
* **C20** Vector norms and extrema are the mathematical ones – partial, 13 theorems. norm(x,Linf) and vec_max<double> violate the property: negations proved with witnesses and exact failure conditions; relative residual is not relative in its first component. Correct cases proved.
* **C21** Scatter bounds enclose exactly the possible scatter sources – proved, 2 theorems. 
* **C22** Material finalisation depends only on the stored data – partial, 9 theorems. Bounds are history independent. Cutoff is right on a first finalize and whenever upscatter exists; it is stale otherwise (counterexample), and the adjoint downscatter flag is never set.
* **C23** In-scatter source is the full sum over other groups – proved, 2 theorems. 
* **C24** Fixed-block plus Krylov-block scatter is the full scatter source – partial, 4 theorems. Exact formula proved; equals the intended sum iff the double-counted groups contribute nothing; counterexample given.
* **C25** Fission source bookkeeping – proved, 7 theorems. 
* **C26** Discretised sweep conserves particles – proved, 12 theorems. Cell identity for all seven schemes and the global balance for whole sweeps in 1-D, 2-D and 3-D, any octant order, any boundary update that only rewrites incident fluxes. Exact arithmetic; step characteristics for any function in place of exp.
* **C27** Step-difference sweeps preserve positivity and linearity – proved, 17 theorems. Linearity of all schemes and whole sweeps; positivity of step and step-characteristic sweeps (true exponential, non-void cells). Diamond difference is not positive (witness), positive in thin cells.
* **C28** A sweep visits each cell once in upwind order – proved, 7 theorems. 
* **C29** Octant ordering is a permutation with vacuum-most octants first – proved, 6 theorems. Exchange sort, permutation, vacuum-first order proved; a user-supplied order is checked only for its length (witness).
* **C30** Reflection mirrors the outgoing flux – proved, 8 theorems. Pair tables, per-group and per-angle updates on one side and on the whole boundary with any mix of conditions (reflecting side facing a periodic one excluded for the per-angle form; no periodic side for the per-group form), zero net current, and the sweep theorems' hypotheses.
* **C31** Periodic update carries outgoing flux to the opposite side – partial, 4 theorems. The per-angle update used inside sweeps is right. The per-group update, the only one used by the Krylov solvers, never changes an entering flux (proved for all containers, witness given).
* **C32** Boundary flux vector get/set round-trips – proved, 8 theorems. 
* **C33** Incident and outgoing octant tables agree with direction signs – partial, 3 theorems. Tables right in all dimensions. In adjoint mode signs flip but the tables do not, so they are exactly reversed (proved); the library's own code never enables that mode.
* **C34** Adjoint quadrature reverses every direction – proved, 2 theorems. After any call history; consequence for a sweep stated as its own theorem.
* **C35** Moment numbering is a bijection with the documented counts – proved, 1 theorems. 
* **C36** Angle numbering is a bijection – proved, 3 theorems. 
* **C37** Pin, assembly and core meshes tile their components – partial, 6 theorems. Square lattices of equally meshed square components proved; x edges are wrong when columns hold pins of different widths, and rectangular assemblies are built wrongly (witnesses proved).
* **C38** Constructive solid geometry is set algebra – proved, 2 theorems. 
* **C39** Ray-surface intersections lie on the surface in travel order – proved, 8 theorems. On-surface exactly unless the quadratic coefficient along the ray is nonzero but below 1e-13 (then within 1e-13*t^2/2); tangent points are never returned (proved), transversal ones always. Square root by its defining property at the discriminant.
* **C40** Track reversal and normalisation – partial, 9 theorems. Reversal right once; reversing twice leaves the segments backwards (proved). Normalisation exact without sharing; in databases holding tracks with their reverses the ratio is applied twice (proved, witness).
* **C41** Coarse mesh is a conservative partition of the fine mesh – partial, 8 theorems. Complete whenever the coarsening is defined, and exactly when that is; some sizes and levels write outside a vector (11 cells at level 4; any level above the mesh size).
* **C42** Current-tally storage indices never collide – partial, 7 theorems. Slots distinct and in range; one- and two-dimensional sweeps record exactly the crossings of coarse faces when each direction has at least two cells; one-cell directions index outside (proved); three-dimensional sweeps never tally.
* **C43** Scaling and clearing a state acts on the whole state – partial, 5 theorems. Complete for one moment per cell and for angular fluxes; with more moments only the first block is scaled or cleared, and a stored current never is (proved).
* **C44** Homogenisation preserves reaction rates – partial, 13 theorems. Rates preserved for total, absorption, fission, production, diffusion and scatter over all groups; the spectrum is weighted by the last group alone, is missing for coarse groups without fission, the reported flux is divided by the volume once per fine group, and group subsets use the wrong weights (negations with witnesses).
* **C45** Tabulated materials and sources interpolate linearly in time – partial, 9 theorems. Every tabulated quantity, for all tables and times, with continuity over the reals; the fission production the solver uses is the product of two interpolations and is not linear between table times (negation with witness).
* **C46** BDF coefficients differentiate polynomials exactly – proved, 3 theorems. 
* **C47** Precursor update is the implicit step and keeps equilibrium – proved, 6 theorems. 
* **C48** Time stepper keeps the right history – proved, 4 theorems. 
* **C49** Basis expansion round-trips – partial, 8 theorems. Projection and round trip for every normalised basis, any weights; the shared-pointer inverse has its arguments exchanged, unfold uses only the last column, and the delta basis reads a null pointer (proved).
* **C50** Diffusion loss operator is conservative and symmetric per group – partial, 12 theorems. Matrix rows are the diffusion currents (defined by Fick's law in both half cells and the albedo relation) plus removal less scatter and fission, for all meshes up to 3-D, all materials, forward and adjoint, any cutoff; symmetric and positive semi-definite per group, conservative, off-diagonals not positive, every insert succeeds; the within-group operator too. Not satisfied: rebuilding a loss operator is undefined (proved for every non-empty one), and an "albedo" input entry makes every side reflecting.
* **C51** Diffusion gain operator adjoint is the transpose – proved, 3 theorems. Construction, rebuilding with a new material, products and transposition.
* **C52** CMFD operator reproduces transport balance – partial, 7 theorems. Exact balance of the tallied currents for every flux, current, mesh and positivity fix without relaxation, and with relaxation once the factors have settled; global conservation; rebuilding with the same scattering structure. Negations with witnesses: relaxed factors before convergence, and rebuilding after the scattering range grows (the refused insert is ignored).
* **C53** Restriction after prolongation is the identity – partial, 17 theorems. Restriction and prolongation products for every input; the exact condition under which no restriction entry is dropped (always in 1-D and for even coarsening); restriction after prolongation is the identity at the first forward build and x/n after n builds; flat fluxes and volume integrals are preserved. Negations with witnesses: a 5x5 mesh at level 2 drops entries, the coarse spectrum is never reset between builds, adjoint mode condenses the wrong groups or reads past the spectrum, and the coarse operator has the wrong size whenever the cutoff is positive.
* **C54** Text mesh input is accepted exactly when consistent – partial, 8 theorems. Full statement: C54Claim. One dimension is proved in full; in two dimensions a consistent coarse description is accepted exactly when both directions have the same number of coarse cells; in three dimensions when all counts are equal. Otherwise it fails: rectangles are rejected, three-dimensional counts are shifted (C54_wrong_counts), inconsistent second-direction edges are read out of bounds, fine edges are never accepted beyond one dimension, and the documented example is rejected.
* **C55** Edited region quantities are normalised – partial, 8 theorems. Full statement for the mean: C55Claim. Powers and sums are proved in full, including the normalisation. The mean loop runs over cells instead of regions: exactly what it computes is C55_edit_mean_exact; it is right when the first cells lie in different regions (C55_edit_mean_partial) and wrong or out of bounds otherwise (C55_mean_wrong, C55_mean_undefined, C55_claim_fails).
* **C56** Power iteration eigenvalue bookkeeping – partial, 10 theorems. Full statement: C56Claim. Proved without relaxation for any exact homogeneous multigroup solver: the estimates, power iteration, the meaning of the stopping test, a bound on the distance to the eigenvalue, and reproduction of exact eigenpairs. With relaxation only the estimate is relaxed and an exact eigenpair is not reproduced (C56_relaxed_eigenpair, C56_claim_fails); with no iterations an uninitialised variable is read (C56_no_iterations).
* **C57** Group blocks cover every group exactly once – partial, 9 theorems. Full statement: C57Claim. Group blocks, offsets, sizes and the accepted cutoffs are proved for every group count in both modes (C57_cover_partial, C57_offsets, C57_layout). It fails where the constructor accepts a cutoff equal to the number of groups in adjoint mode (C57_adjoint_cutoff_accepted, C57_claim_fails), and the scatter-fission operator of the preconditioner indexes past its vectors in adjoint mode (C57_scatter_adjoint_undefined).
* **C58** Region membership respects its bounding box – partial, 6 theorems. The box never rejects a point (negation proved); the ray-box test is exact apart from rays running in a face plane (witness); regions without a box are tested against a point box (proved).
* **C59** Synthetic source formulation equals the coupled kinetics step – proved, 3 theorems. 
* **C60** Vector utilities – proved, 7 theorems. linspace with n=1 returns only a (stated separately). The reversed iterator compares with begin()-1, which is only an address comparison.
* **C61** A meshed pin cell represents the pin – partial, 5 theorems. Uniform meshing, best-fit edges and fuel area proved. The best-fit count is never below the request and equals it exactly under the stated condition; a thin pin gives a negative count (witness), so the full claim is false.
* **C62** Material accessors return what was last stored – proved, 10 theorems. A nu*fission value set directly is overwritten by finalize, and by set_downscatter once finalized; the specification of histories says so. Out-of-range indices and vectors shorter than the number of groups are undefined behaviour in release (C62_defined).
* **C63** Sweeps preserve flat solutions – proved, 4 theorems. Stated for any per-cell equation that maps the constant to itself; all seven schemes are shown to do so.
* **C64** Product-quadrature side slots – proved, 4 theorems. Strictly ordered in-octant angle sets.
* **C65** Quadrature sets integrate over their domain – partial, 14 theorems. Exact arithmetic. Simpson sets with 3k+2 points miss one weight (exact sum and witness proved), so the weight-sum claim fails there. Doubling is proved for any given half set; the Gauss-type generators are the subject of C90 and C91.
* **C66** Spherical harmonics and the moment-to-discrete operator – proved, 7 theorems. Exact constants; the decimals meet the exact relations within 2e-14. Degrees above three throw (built without Boost).
* **C67** Fixed boundary sources and boundary-condition names – proved, 4 theorems. 
* **C68** Ray tracing segments cover a region exactly – partial, 6 theorems. Pieces inside, covering and ordering proved for rays not tangent at a piece's midpoint; an empty intersection list makes the loop run past the end (witness: a track beside the fuel of a pin cell).
* **C69** Pin-cell regions partition the cell – partial, 4 theorems. Any radii and divisions for centred pins, any offset for single divisions; offset pins with both divisions have overlapping regions and misplaced planes (witnesses).
* **C70** A geometry built from a mesh locates points in mesh cells – proved, 2 theorems. Edges are measured from zero whatever the mesh's own origin.
* **C71** Translated regions and assemblies – partial, 5 theorems. Membership and the region list proved; the bounding box is moved the wrong way (exact statement, negation, and a row of three pins whose third pin gets no segments).
* **C72** The stepper covers the requested time with the fewest steps – proved, 4 theorems. 
* **C73** Half step plus extrapolation is the midpoint rule – proved, 3 theorems. 
* **C74** Physics variables take the implicit backward-difference step – proved, 2 theorems. 
* **C75** Material updates do not accumulate – proved, 2 theorems. 
* **C76** A pulsed source is a Gaussian with the width requested – proved, 3 theorems. 
* **C77** Discrete and moment synthetic sources agree – proved, 1 theorems. 
* **C78** Iterations within a step stop at convergence or the limit, and the residual is reported – partial, 2 theorems. Iteration logic proved; the residual is computed into a local variable that hides the member, so the reported one stays zero (proved).
* **C79** The discrete Legendre basis is orthogonal for every size – proved, 3 theorems. 
* **C80** The discrete Chebyshev basis is orthogonal with equal norms – proved, 4 theorems. 
* **C81** The cosine basis is orthogonal for every size – proved, 3 theorems. 
* **C82** Transformed bases are orthonormal and keep the span – partial, 4 theorems. Without weights; with weights the columns are not orthogonal in the weighted product (negation with witness).
* **C83** Continuous Legendre and Jacobi bases are orthogonal and normalised under exact quadrature – partial, 4 theorems. Jacobi complete for orders up to seven (others rejected). Legendre columns orthogonal on every interval, but the fixed coefficients normalise only intervals of length two; otherwise everything is scaled by half the length (proved).
* **C84** The Chebyshev basis evaluates Chebyshev polynomials of the second kind – partial, 3 theorems. Degrees up to eight; from nine on the recurrence lacks the factor x (negation for every such degree).
* **C85** Multigroup solves satisfy the multigroup equation – partial, 5 theorems. Full statement: C85Claim. Proved for exact inner and linear solves, both modes, implicit fission included, whenever no group of the Krylov block has its lowest source beyond the cutoff (C85_krylov_partial), and for converged Gauss-Seidel (C85_gauss_seidel, C85_single_pass). Without that hypothesis the result depends on the flux the solve started from (C85_claim_fails). Sweeps enter as arbitrary additive maps; reflecting boundaries are not modelled here.
* **C86** Within-group solves count every source once – partial, 5 theorems. Source iteration is proved in full (C86_source_iteration); the Krylov solve is proved without discrete external sources (C86_krylov_partial). With them the operator is affine and the discrete source is counted twice (C86_krylov_system, C86_operator_affine, C86_discrete_source_wrong). Reflecting boundaries are not modelled here.
* **C87** Text input lines become database entries however they are spaced – proved, 5 theorems. Number conversions of the standard library are parameters.
* **C88** Material lines of the text input set the quantities they name – partial, 7 theorems. Full statement: C88Claim. Everything but the production cross section: nu_sigma_f lines, used by the documented example, are silently ignored (C88_ignored, C88_claim_fails).
* **C89** Level-symmetric sets integrate the sphere evenly – partial, 8 theorems. Full statement on positivity: C89Claim; negative weights from order twenty on (C89_claim_fails), positive exactly up to order eighteen (C89_positive_partial). Everything else is proved for every supported size; the tables are the decimal literals, so moments and turned cosines hold up to 1e-23.
* **C90** Gauss-Legendre sets integrate polynomials exactly – proved, 19 theorems. Every root and weight for every size: C90_roots, C90_generated, C90_increasing, C90_set; integrals C90_integrates, C90_double_integrates, C90_polar_integrates, C90_polar_double_integrates. The roots are located with the phase of Legendre's equation; Newton's iteration falls monotonically to each root from its guess, at least by a factor 11/2 each time. C90_exact_if, C90_interval_if, C90_double_set_if, C90_from_roots: exactness when the search ends at roots.
* **C91** Gauss-Chebyshev sets integrate over their interval – partial, 7 theorems. Full statement on the total: C91Claim, false for every size (C91_total gives the exact excess, C91_claim_fails). Exactness against the Chebyshev weight and normalisation are proved for every size.
* **C92** The equal-weight set covers the sphere evenly – proved, 2 theorems. Exact arithmetic.
* **C93** Tabulated polar and azimuthal sets integrate what they are built for – partial, 10 theorems. Full statement on the total: C93Claim; the four-angle Tabuchi-Yamamoto weights come to 0.99999998 (C93_ty_partial, C93_claim_fails). Everything else is proved for every supported size, up to 1e-15 in the integrals because the tables are rounded.
* **C94** The input's quadrature name gives the set it names – partial, 11 theorems. Full statement for pairs: C94Claim. Fails: asqr-tg builds the double-range polar set (C94_asqr_tg) and product sets ignore the normalisation entry (C94_norm_ignored, C94_claim_fails). All other names, defaults, rejection and user sets are proved for every input; a one-dimensional user set reads out of bounds (C94_user_ub). Counts are passed on unchanged; the conversion of negative counts is not modelled.
* **C95** GMRES minimises the residual and tells the truth about it – proved, 5 theorems. Exact arithmetic over any ordered field with a square root, any inner product; absolute tolerance positive. Printing not modelled.
* **C96** GMRES honours its limit, its database and an exact guess – partial, 5 theorems. Full statement: C96Claim, fails (C96_claim_fails): the limit test breaks out before the monitor, so the status stays 'running' and only limit-2 iterations are made (C96_status_partial). An exact guess with zero absolute tolerance divides by zero (C96_exact_guess). A preconditioner named in the database is built but never applied (C96_database_preconditioner); one handed over through set_preconditioner is (C96_set_preconditioner).
* **C97** The characteristics equation integrates the transport equation along a segment – partial, 13 theorems. Full statement for the sweep: C97Claim, fails (C97_claim_fails): the body of the MOC sweep is commented out, so it leaves the flux alone. Proved for the segment equation: it is the exact solution of the transport equation along the segment (C97_segment_exact, C97_solution_exists, C97_solve), balance, splitting, flatness, track balance and positivity. A void region divides by zero (C97_void) although the equation has a solution (C97_void_solution); changing the azimuth without the polar angle keeps the weight of the old direction (C97_stale_angle).
* **C98** Power iteration returns what it says – partial, 16 theorems. Full statements: C98Claim, fails for negative eigenvalues (C98_claim_fails, C98_never_negative, C98_negative: the estimate is a norm and the limit is reported), and C98OpsClaim, fails (C98_ops_claim_fails, C98_stale_B: a new operator without a second one keeps the old second one). Proved for positive ones: C98_outcome, C98_defined, C98_success, C98_eigenvector_partial, C98_converges, C98_dominant. A limit raised through set_tolerances writes past the residual array (C98_raised_limit); a preconditioner for a standard problem goes through a null pointer (C98_preconditioner_null). Norms are any function with the norm laws; inner solves are exact.
* **C99** Davidson and Eispack return the pair they report – partial, 15 theorems. Full statement: C99Claim, fails (C99_claim_fails, C99_limit_one): at the limit the limit is tested before the tolerance, so a converged pair is reported as not converged. Otherwise C99_outcome and C99_defined. The dense solver returns the real part of a complex pair with a vector that is no eigenvector and never reports success (C99_eispack). An exact preconditioner breaks down (C99_exact_preconditioner); subspaces of size one never grow (C99_size_one) and of size zero divide by zero. The Fortran routines are a parameter under their documented convention.
* **C100** Solvers are built as the database says – partial, 5 theorems. Full statement: C100Claim, fails (C100_claim_fails): the creator turns the divergence check, which solvers have on by default, off unless the entry is present. Everything else holds: C100_defaults, C100_linear, C100_linear_error, C100_eigen. PETSc and SLEPc solvers are not modelled.
* **C101** The diffusion solver conserves particles and fills state and boundary consistently – partial, 14 theorems. Full statements: C101Claim (partial currents at every boundary face; fails at reflecting sides, where a positive outgoing current is stored with zero incoming: C101_boundary_partial, C101_reflect_outflow, C101_claim_fails), C101RefreshClaim (fails in adjoint mode: refresh always uses cutoff zero, C101_refresh_adjoint, C101_refresh_claim_fails; forward mode proved in C101_refresh), C101CurrentClaim (fails: low faces are ignored and the scale is 6 area/surface, C101_current_partial, C101_current_claim_fails). Flux, source, cell balance and global balance are proved for every mesh and source. The linear solve is exact.
* **C102** Every source given contributes once to the transport sweep – proved, 7 theorems. Exact arithmetic; null pointers in the source list are skipped. Tables of sources are functions of group, cell and angle.
* **C103** A fixed source manager solves the problem set up, when and only when it is ready – partial, 5 theorems. Full statement: C103Claim, fails (C103_claim_fails): a set_solver that is refused leaves the old solver in force and solve runs it and answers true. Proved over all sequences of calls: C103_solve_iff, C103_problem, C103_options. The multigroup solve is a parameter.
* **C104** Generations of fission neutrons follow one another – partial, 6 theorems. Full statement: C104Claim, fails (C104_claim_fails): iterate updates the density but never the group sources, so every generation after the first vanishes (C104_vanish). Proved: the first generation (C104_direct_partial), and that generations and their sum are right if the client updates the fission source itself (C104_refreshed, C104_series). Solves are exact and linear.
* **C105** An eigenvalue manager solves with the solver asked for, or says that it cannot – partial, 5 theorems. Full statement: C105Claim, fails (C105_claim_fails, C105_skipped): with an unknown multigroup solver every multigroup solve is skipped and solve still answers true, with eigenvalue zero. Proved: C105_choice, C105_construct, C105_ready_partial.
* **C106** The diffusion eigenvalue solver returns a solution of the diffusion eigenvalue problem – partial, 5 theorems. Full statement: C106Claim, fails (C106_claim_fails): the eigenvalue solver never reads the entry adjoint, so in adjoint mode the forward gain operator (C106_forward_gain) is paired with the transposed loss operator (C106_loss_transpose). Proved: the forward problem (C106_equation), the transposition of the loss operator, and biorthogonality with the transposed gain (C106_adjoint_partial). The eigenvalue solver of callow is a parameter returning an eigenpair.
* **C107** Coarse-mesh acceleration of a fixed source problem leaves the transport solution alone – partial, 16 theorems. Full statement: C107Claim, fails (C107_claim_fails): the operator is rebuilt without the multiplication factor, so with another factor than one the solution is changed and the loop never ends at it (C107_keff_ignored, C107_wrong_answer); discrete sources are not restricted (C107_discrete_dropped); the homogenised spectrum is wrong when a group has no fission or spectra are mixed. Proved for the remaining cases: C107_consistent_partial, C107_fixed_point_partial; for all cases: C107_shape, C107_restricted, C107_positive, C107_identity, C107_loop, C107_kept. The weighting current ignores the signs of the octants: C107CurrentClaim fails (C107_current_claim_fails), C107_current_partial. Sweep, current tally and linear solver are parameters.
* **C108** Coarse-mesh acceleration of an eigenvalue problem finds the multiplication factor of the transport problem – partial, 6 theorems. Full statement: C108Claim, fails (C108_claim_fails): a problem with fission only in groups without emission gets a zero gain operator (C108_zero_gain) and the eigenvalue zero (C108_wrong_eigenvalue). Proved where every group has fission and each coarse cell one spectrum: C108_pair_partial, C108_fixed_point_partial. The loop: C108_loop; it tests the density only. Sweep, norm and the eigenvalue solver of callow are parameters.
* **C109** The Arnoldi-type eigenvalue solver stores a solution of the transport eigenvalue problem – partial, 6 theorems. Full statement fails twice: the stored density is the eigenvector, which is the production of the stored flux divided by k (C109Claim, C109_claim_fails); with more than one moment per cell every copy between vector and density is out of bounds (C109_overrun). Proved for one moment per cell: C109_operator, C109_flux_partial, C109_complete, C109_guess. The multigroup solver is a parameter that solves the fixed source problem; callow's eigensolvers are C98, C99; reflecting sides are not modelled.
* **C110** The generalised Davidson eigenvalue solver works on the transport eigenvalue problem – partial, 5 theorems. Full statement: C110Claim, fails (C110_claim_fails): without up-scatter the multigroup operator is a null pointer (C110_downscatter_null), with up-scatter only below some group the two operators differ in size (C110_setup); overriding the cutoff with the whole range is the only remedy (C110_override). Proved there: C110_pair_partial. Reflecting sides and preconditioners are not modelled.
* **C111** A preconditioner changes the number of iterations, not the answer – partial, 17 theorems. Within one group proved for all meshes and boundary values (C111_within_group, C111_within_regular, C111_right_residual); coarse mesh C111_coarse (no smoothing); transport correction C111_correction_error, C111_fine_correction, C111_corrected_injective. Over all groups (C111Claim) it fails: boundary values are set to zero (C111_claim_fails, C111_boundary_frozen, C111_wrong_answer), a fission factor other than the one built in can make it singular (C111_scale_singular), adjoint indices run past the vectors (C111_adjoint_overrun); proved for forward problems without boundary unknowns and with matching factor (C111_multigroup_partial, C111_multigroup_regular_partial). The diffusion solver is a parameter that solves its problem exactly; Jacobi smoothing is not analysed.
* **C112** Solver vectors behave like values – partial, 6 theorems. Full statement: C112Claim, fails (C112_claim_fails): the class has a destructor and a copy constructor but no assignment operator, so assignment copies the pointer: a double free (C112_assign_twice), shared elements (C112_assign_shared) and a leak (C112_assign_leak). Proved for every program without assignment: C112_values_partial, C112_no_leak_partial. Allocation never fails and hands out fresh addresses; a call whose sizes do not match is outside the claim, as its checks are compiled out.
* **C113** The norms that decide convergence of the linear solvers are norms – partial, 13 theorems. Full statement for residuals: C113Claim, fails (C113_claim_fails): the relative largest difference is not relative (C113_linfrel, C113_linfrel_unit) and the mean kinds throw (C113_grid_residual); the norm of a single vector of a relative kind is silently zero (C113_relative_norm). Proved: C113_norm, C113_zero, C113_scale, C113_triangle, C113_cauchy, C113_residual, C113_relative_partial, C113_relative_scale_partial. Real arithmetic; elements divided by are not zero.
* **C114** What is written to an HDF5 file is read back – partial, 12 theorems. Full statement: C114Claim, fails (C114_claim_fails): diffusion coefficients come back as absorption cross sections (C114_diff), a second write of a kind is silently ignored (C114_second_write), writes after an input or mesh was written and the file closed throw (C114_rewrite_refused), writes after closing otherwise empty the file (C114_truncates), writes to a file opened by reading are silently ignored (C114_readonly), nested databases with a slash in their name are lost (C114_nested_lost), as is the second of two whose names stand for one link (C114_nested_same), incomplete files are undefined behaviour (C114_foreign). Proved: C114_faithful_partial, for programs that write each kind once before the first close. The HDF5 library is modelled by its documentation.
* **C115** The executable solves the problem described in its input file – partial, 9 theorems. Full statement: C115Claim, fails (C115_claim_fails): the executable never chooses a solver, so that no fixed-source problem is solved: every such run ends with a message, a zero flux and exit code zero (C115_fixed_unsolved); the exit code is zero after exceptions, too (C115_exit_zero); unknown problem types are taken for fixed (C115_unknown_type); a missing source type is announced as a skipped solve and is undefined behaviour (C115_no_source); the default strength is never used (C115_strength). Proved: C115_source_partial, C115_eigen_partial. Parser results are the input; Silo output is not modelled.
* **C116** Pictures show the cell or region at each point – partial, 23 theorems. Full statement: C116Claim, fails (C116_claim_fails): rows are stored ny entries apart, so pictures with more rows than columns are written out of bounds (C116_tall, C116_fill_tall) and those with fewer are scrambled (C116_fill_wide); equal values have no colour (C116_flat). Proved for square pictures: C116_square_partial (row 0 is the bottom of a mesh), C116_geometry (row 0 is the top of a geometry), C116_every_cell; with one point to the smallest cell cells can be missed (C116_cell_missed). Map COOLWARM not modelled.
* **C117** The LRA benchmark material is that of the current time and temperatures – partial, 13 theorems. Full statement on balance: C117Claim, fails in the fast group of the reflector by 9e-15 (C117_claim_fails); everywhere else it holds (C117_balance_partial). The rod's absorption jumps by 2e-7 at two seconds (C117_ramp_jump) and the temperatures reported are always 300 (C117_T_stale). Everything else is proved over all sequences of calls. Tables are the decimal literals; regions outside 0 to 5 excluded.
* **C118** Spectra for condensation belong to their materials – partial, 10 theorems. Full statement for the fixed-source spectrum: C118Claim, fails (C118_claim_fails): the fission cross section is used in place of production. Proved with that cross section (C118_fs_partial) and where they agree (C118_fs_unit). The Gauss-Seidel spectrum is right, in the same sense, for the first material (C118_gs_partial); those of all others are zero (C118_gs_others) and the preconditioner divides by them (C118_gs_divides). Pin cells: C118_pincell; the eigenvalue given has no effect (C118_pincell_keff). Solvers exact; pin cell calculations are a parameter.
* **C119** The reduced-order solver solves the projected problem – partial, 11 theorems. Full statement on the vector: C119Claim, fails (C119_claim_fails): negative entries are reversed one by one, so that a vector with both signs is spoilt; proved for vectors of one sign (C119_solution_partial). A missing file leaves the basis as it was (C119_basis_missing), a short one leaves undefined numbers (C119_basis_short), and the energy-dependent kind overwrites three entries of the user's input (C119_keys). Proved: C119_basis, C119_project, C119_generalized, C119_standard, C119_exact, C119_kind. The eigenvalue solver is a parameter; the full operators are matrices.
* **C120** The incomplete factorization preconditioner keeps what it says it keeps – partial, 7 theorems. Full statement on dropping: C120Claim, fails (C120_claim_fails): sorting is by decreasing size and the first values are removed, so that the smallest are kept (C120_keeps_smallest). The threshold looks at the column with the number of the position and skips the value after a dropped one (C120_threshold), may read outside the row (C120_sparse_undefined), and with default options drops the diagonal and then reads outside (C120_defaults). Proved for complete factorizations: C120_factors_partial, C120_solves_partial, under the hypothesis that the stray reads are harmless or do not occur.
* **C121** Tracks cover the geometry in every direction – partial, 13 theorems. Full statements: C121Claim (widths) and C121SpacingClaim, both fail (C121_claim_fails, C121_spacing_claim_fails): sine and cosine are interchanged in the weights and in the numbers of points, so that the weights add up to Y sin + X cos (C121_weights) and the spacing is off by the tangent or cotangent (C121_spacing); right for squares (C121_width_partial), wrong for all other rectangles except at 45 degrees (C121_width_wrong). A tracker used again keeps the tracks of the first geometry in three octants, appends segments to them, and leaves reversed tracks whose segments belong to no track (C121_again). Proved: C121_defined, C121_tracks, C121_entries, C121_segments, C121_no_3D, C121_defaults. What segments lie between two points is a parameter here (segmentize has its own property); vectors of segments do not die in the model.
* **C122** Random numbers follow the generator asked for – partial, 10 theorems. Full statement: C122Claim, fails (C122_claim_fails): the constructor ignores the multiplier and the increment it is given (C122_arguments). Proved for the built-in multiplier without increment and up to 53 bits: C122_sequence_partial, C122_range, C122_period, C122_uniform, C122_positive; seeds that are multiples of the modulus give only zeros (C122_zero_seed). From 54 to 62 bits every number is zero or one (C122_wide). Signed overflow is modelled as keeping the low 64 bits; by the language the second call of the default generator is already undefined (C122_overflow).
* **C123** Sweeps with several threads give the result of the sweep without – partial, 9 theorems. Proved in two dimensions (C123_2D), for boundary and angular fluxes in all dimensions (C123_fluxes_1D, C123_fluxes_3D), and that threads can always finish (C123_runs). The full statements for the moments, C123Claim and C123Claim3D, fail (C123_claim_fails, C123_3D_claim_fails): in one and three dimensions all threads add to the moments of the caller, and contributions are lost; with one thread they hold (C123_one_thread_1D_partial, C123_one_thread_3D_partial). The tally is reset by every thread as it begins, so that contributions of others are wiped out (C123_tally). Steps are begin, load, store and finish with sequentially consistent memory; what else a data race may do is not modelled.
* **C124** Group solves with reflecting sides find the flux that is its own reflection – partial, 18 theorems. Proved for the exact solution of the linear system and settled uncollided reflection (C124_solution; C124_1D, C124_2D, C124_3D), for any vector with its residual (C124_residual), conversely (C124_complete, C124_unique), for source iteration (C124_si, C124_si_sides) and its agreement (C124_solvers_agree), for the operator (C124_operator_pure, C124_operator_linear), and for the fluxes after the solve with the boundary option (C124_finish, with C124_settled and C124_mismatch for the reflection). The full statements about boundary fluxes without the option, C124Claim, and about periodic sides, C124PeriodicClaim, fail (C124_claim_fails, C124_periodic_fails): only the collided part of the entering flux is stored (C124_boundary_partial), and periodic sides count as vacuum. One flux moment, no discrete sources (their contribution stays on in the operator); what residual GMRES leaves is C95.
* **C125** Multigroup solves with reflecting sides find every group's flux – partial, 16 theorems. Proved for one solve with an exact linear solve and settled uncollided reflection: the block (C125_solution), all groups when those outside the block receive nothing from later ones and no group of the block from before its cutoff (C125_balanced, with C125_group and C125_si for the groups solved one at a time), any vector with its residual (C125_residual), the converse (C125_complete, C125_unique), the operator (C125_operator_pure, C125_operator_linear), the fluxes after the solve with the angular option (C125_finish); hypotheses discharged for the three geometries (C125_ok1, C125_ok2, C125_ok3). The full statement for a second solve, C125RepeatClaim, fails (C125_repeat_fails): the block's solve leaves the boundary updates of the shared sweeper off (C125_flag), so source iteration in the other groups never changes what enters at reflecting sides again (C125_frozen). One flux moment; periodic sides and boundary fluxes without the option as in C124.
* **C126** A transient is the sequence of implicit steps from the initial state, and a steady state stays – partial, 8 theorems. Every step and the whole sequence for any solver residual (C126_transient, which also says the stepper never throws and remains usable). Steady states are kept (C126_steady_partial) if angular fluxes are stored or the flux is isotropic, the steady equation uses the delayed spectra, and the spatial closure does not depend on the total cross section (not so for step characteristics). The full statement, C126Claim, fails (C126_claim_fails): with flux moments only, the default, a transport steady state drifts (C126_moments_drift), and the library's own critical state drifts when delayed neutrons have another spectrum (C126_spectrum_drift). Solving again gives the same transient without physics variables (C126_repeat_partial), not with them (C126RepeatClaim, C126_repeat_fails). With feedback, passes of a midpoint step settle on the material at the end-of-step physics (C126MidpointClaim, C126_midpoint_fails). The multigroup solve is a function of material, source and current solution; one flux moment.
* **C127** Making a solver does not change which solvers are made later – partial, 11 theorems. For every database state the solvers made are those the input asks for as it then is (C127_made, C127_defaults, C127_transport_defaults), and only solver databases are added (C127_input_kept). The history does not matter as long as settings are put before the first solver and no reduced-order solver is made (C127_history_partial), and for eigenvalue solvers if EigenGD was not used (C127_eigen_history_partial). The full statement, C127Claim, fails (C127_claim_fails): the first solver writes a database with the tolerances of that time into the client's input, so tolerances put later are ignored (C127_tolerance_fails, and for all histories C127_frozen); EigenGD overwrites the method in the client's database (C127_gd_fails); a reduced-order solver overwrites the solver kind (C127_rom_fails). Operators, vectors and preconditioner databases are left out.
* **C128** Source iteration finds the group's only flux whenever scattering is less than the total – partial, 17 theorems. Proved: one flux (C128_exists, C128_unique), convergence from any start, with reflecting sides (C128_converges, C128_total), the end of the iteration (C128_stops, C128_test), the linear system of GMRES (C128_system, C128_gmres), all of it with hypotheses discharged for the schemes and geometries (C128_1D, C128_1D_sc, C128_2D, C128_2D_sc, C128_3D). Without reflecting sides each pass shrinks the error by the scattering ratio (C128_contract) and the stopping test bounds it (C128_accuracy_partial). With reflecting sides the bound, C128Claim, fails (C128_claim_fails): in a thin box between mirrors the first pass from zero changes the flux by less than the tolerance and the iteration stops at nearly zero flux. The boundary unknowns of GMRES need not be determined: its matrix is singular for a cell with four reflecting sides (C128_singular). Exact arithmetic, one flux moment, no discrete sources, no periodic sides.
* **C129** Gauss-Seidel over the groups finds the only flux of weakly coupled groups – partial, 23 theorems. Proved: one set of fluxes (C129_unique, C129_exists, C129_exists_block), contraction with exact group solvers and any sides (C129_exact), with any number of inner passes and no reflecting side (C129_block, C129_inexact, C129_converges), with one inner pass per group and any sides but periodic (C129_total, C129_reflect), the outer test and loop (C129_test, C129_loop, C129_stops), the whole solve when every group is in the block (C129_solve), agreement with the Krylov solver (C129_gmres), the conditions on the coupling (C129_downscatter, C129_conserving) and the schemes and geometries (C129_1D, C129_1D_sc, C129_2D, C129_2D_sc, C129_3D). The error bound of the outer test is proved without reflecting sides only (C129_accuracy_partial). That a solve without a warning is accurate, C129Claim, fails (C129_claim_fails): a problem that is not iterated is one group solve each, whose limit is checked nowhere. Not shown: convergence with reflecting sides and two or more but inexact inner passes per group. Exact arithmetic, one flux moment, no discrete sources, no periodic sides, norm Linf.
* **C130** Source and detector may be exchanged, and an adjoint solve gives the importance of sources – partial, 15 theorems. Proved: reciprocity in one group (C130_reciprocity, C130_exchange, with differing sides C130_boundary), the adjoint mode's response with isotropic sources (C130_adjoint) and with directional sources weighted with the opposite direction (C130_directional), equal eigenvalues (C130_eigenvalue, C130_keff), the Krylov solver's fluxes (C130_krylov), approximate fluxes and the Gauss-Seidel passes (C130_near, C130_passes without reflecting sides, C130_passes_reflect with one inner pass), every scheme and geometry (C130_1D, C130_2D, C130_3D). That the adjoint angular flux stored for a direction is the importance of that direction, C130Claim, fails (C130_claim_fails): the sweeps ignore the mode. Exact arithmetic, one flux moment, vacuum and reflecting sides.
* **C131** A uniform problem between mirrors gives the flux of the infinite medium – proved, 13 theorems. Flat fluxes that balance at every cell solve the transport equations (C131_flat), with the hypotheses on the cells discharged for every scheme and geometry (C131_1D, C131_2D, C131_3D); Gauss-Seidel goes there and nothing else solves the equations if the coupling is weak in the sense of C129 (C131_passes), the Krylov solver returns them (C131_krylov), they exist and are unique (C131_medium), in one group source over absorption (C131_one_group). Eigenvalues: C131_kinf, C131_keff. Diffusion: C131_diffusion, only solution with weak coupling C131_diffusion_only, agreement of both C131_agree. Exact arithmetic, one flux moment, no discrete sources, no periodic sides.
* **C132** Fluxes have the right sign, grow with what is put in, and iterations from nothing rise to them – partial, 22 theorems. Proved for step differencing and step characteristics in one and two dimensions and for diamond differencing in thin cells of a slab (C132_1D, C132_2D discharge the hypotheses on the cells): no negative fluxes (C132_positive_partial), bounds (C132_floor, C132_ceiling), comparison (C132_more), one solution (C132_unique, C132_exists), Gauss-Seidel at a geometric rate with any inner iterations and sides (C132_rate, C132_converges, C132_settles_1D, C132_settles_2D; C129 needed one inner iteration or no reflecting sides), rising iterates (C132_iterates), the returned flux (C132_returned). Diffusion: C132_diffusion_positive, _floor, _ceiling, _more, _one and currents where none comes in (C132_diffusion_out_partial). Diamond differencing in thick cells gives negative fluxes (C132Claim, C132_claim_fails), and the diffusion solver stores negative outgoing currents next to incident ones (C132CurrentClaim, C132_current_fails). Diamond differencing in two and three dimensions is not covered: its cells are not positive for any thickness. Exact arithmetic, one flux moment, no discrete sources, no periodic sides.
* **C133** There is one fundamental multiplication factor, bounded by what the medium can make – proved, 29 theorems. For any linear solver without negative fluxes: C133_dominant, C133_one, C133_positive, C133_shape, C133_quotients, C133_upper, C133_lower, C133_above, C133_under, C133_more, and over the reals C133_exists (the fissile cells must reach each other). For transport: the solver exists and is such a solver (C133_fluxes, C133_flux_solver), its modes are the fluxes of the eigenvalue problem (C133_eigen_mode, C133_mode_eigen), bounds by the infinite medium (C133_ceiling, C133_floor), comparison (C133_flux_below, C133_flux_more), and fissile cells reach each other if scattering links the groups that fission neutrons are born in to those that fission (C133_flux_mixing, with the cells' hypotheses discharged in C134_slab and C134_rectangle). For diffusion (any dimension, forward and adjoint, fission as a source): C133_diffusion_fluxes, C133_diffusion_solver, C133_diffusion_mode, C133_diffusion_eigen, C133_diffusion_matrices (it is the problem F x = k C x of the loss and gain matrices), C133_diffusion_ceiling, C133_diffusion_floor, C133_diffusion_more, C133_diffusion_mixing. Other real modes are compared; complex ones are not modelled. Diamond differencing in two and three dimensions and in thick cells is not a positive scheme (C132) and is outside.
* **C134** Power iteration finds the fundamental multiplication factor – proved, 12 theorems. C134_densities, C134_enclosed, C134_nested, C134_converges, C134_stopped, C134_error, C134_returned for any linear solver without negative fluxes whose fissile cells reach each other; C134_transport for transport; C134_slab and C134_rectangle for concrete geometries and schemes, existence of the factor included; C134_diffusion for diffusion on any mesh. The statement assumes that the multigroup solver returns the exact fluxes of each fission source (C129 and C132 say how far Gauss-Seidel gets); C143 treats inexact inner solves. Below which tolerance the bound holds depends on the problem: C134_returned gives no number. Relaxation is off (the default).
* **C135** Backward Euler transients keep fluxes and precursors nonnegative and grow no faster than the media let them – proved, 13 theorems. C135_nonneg, C135_above and C135_below for any multigroup solver with the comparison property (angular fluxes stored or not); C135_diffusion_nonneg/_above/_below and C135_transport_nonneg/_above/_below discharge it for MGDiffusionSolver and for transport with isotropic synthetic sources; C135_transport_1D and C135_transport_2D say which schemes qualify. C135_scheme: of the seven schemes only backward Euler has the property; C135_long_step: the restriction of the step is needed. Multigroup solves are assumed exact. Fluxes given at sides are outside.
* **C136** Refining a slab mesh brings the fluxes to those of the transport equation – proved, 6 theorems. C136_error bounds the error of every mesh by the change of the exact angular fluxes across a cell, with the constant spelt out; C136_rate, C136_converges and C136_passes follow; C136_second is the second order of diamond differencing and step characteristics in any mixture and C136_step_first_order shows that step differencing has no second order (a beam in an absorber). The transport equations are stated as differential equations with side conditions, apart from the code; that they have a solution is assumed (two exact solutions are given as cases). Diamond cells must be no thicker than twice the cosine, which fine meshes ensure.  Exact arithmetic, one flux moment, no discrete sources, no periodic sides.
* **C137** Refining a slab mesh brings the multiplication factor to that of the transport equation – proved, 3 theorems. C137_rate (all schemes), C137_second (diamond and step characteristics) and C137_converges (power iteration). The eigenvalue problem of the slab is stated as differential equations with side conditions, apart from the code; that it has a solution with positive scalar fluxes is assumed (a bare slab with sine and cosine angular fluxes and factor two is given as a case). The factor of the mesh is the one with positive fission density, which C134 shows to be the largest. Group solves are exact; nothing is said about fluxes of the mode. Exact arithmetic, one flux moment, no periodic sides.
* **C138** Refining a slab mesh brings the diffusion fluxes to those of the diffusion equation – proved, 3 theorems. C138_solution (the mesh has one set of fluxes), C138_second and C138_converges. The diffusion equations are stated as first order differential equations for fluxes and currents with side conditions (partial currents or none), apart from the code; that they have a solution is assumed (a wall with a hyperbolic cosine is given as a case). Exact arithmetic and exact linear solves; one dimension only.
* **C139** Refining a slab mesh brings the multiplication factor of diffusion to that of the diffusion equation – proved, 2 theorems. C139_second and C139_converges (power iteration, via C134). The eigenvalue problem of the slab is stated as differential equations with side conditions, apart from the code; that it has a solution with positive fluxes is assumed (a critical quarter wave of fuel in front of a mirror is given as a case). The factor of the mesh is the one with positive fission density. Nothing is said about fluxes of the mode. Exact arithmetic and exact linear solves; one dimension only.
* **C140** A symmetric problem gives symmetric fluxes, those of its half or quarter with mirrors – proved, 12 theorems. Unfolding of fluxes and modes for arbitrary cell equations; agreement of fluxes and of Gauss-Seidel iterates under the hypotheses of C129 and of factors under those of C134. Three dimensions are not covered.
* **C141** A direction along which nothing changes can be left out – proved, 7 theorems. C141_characteristics_fails is the statement about step characteristics: two columns that differ only in height have different fluxes.
* **C142** Transients converge at the order of the scheme as the step is refined – partial, 4 theorems. Full statement: C142Claim (every scheme has the order it is named after). It fails (C142_claim_fails) for backward differences of order four to six, whose first steps limit it to three, and without extrapolation for order three to six, limited to two. Proved: C142_order_partial, convergence at the order attained, for all systems with bounded data and bounded streaming operator whose material depends on time only (no physics feedback), and every solver with a residual bound; C142_exactly_partial, an order holds for all smooth solutions exactly up to the one attained; C142_nominal_partial, which schemes have the order they are named after. The constants depend on the mesh.
* **C143** Power iteration with inexact multigroup solves stops near the fundamental factor – proved, 9 theorems. C143_densities, C143_converges, C143_stopped, C143_error, C143_returned for any linear nonnegative solver with fissile cells that reach each other (Regular) and any sequence of solves within an absolute error of it; C143_biased shows that accuracy of the solves is needed; C143_within, C143_solves, C143_gauss_seidel link it to Gauss-Seidel (MGSolverGS) with its own tolerances on problems with open sides. The constants depend on the problem: the theorems give no numbers. Relaxation is off (the default). The other multigroup solvers are covered as far as their errors are bounded; no bound is proved for GMRES with a tolerance.
* **C144** Matrices, operators and vectors written for MATLAB read back – proved, 6 theorems. C144_matrix for every CSR matrix without negative columns, C144_assembled from insertions through assembly to the file, C144_dense, C144_operator and C144_vector. The specification is a reader of lines and words that knows nothing of the writer. C144_width_lost: the number of columns is not in the file. That 17 significant digits give a double back is the hypothesis Writes (writes_pq shows that it can be met); opening the file is assumed to succeed (the code does not check), and the operator is taken as a function of its input that fills its whole output.
* **C145** More absorption raises no flux and no multiplication factor – proved, 11 theorems. Slabs and rectangles with given sources: C145_1D, C145_2D; multiplication factors: C145_keff_1D, C145_keff_2D. They rest on C145_more, C145_flux_below and C145_keff for any schemes that keep fluxes down as totals go up, which C145_absorbs_1D and C145_absorbs_2D show of the schemes. Diffusion with given sources: C145_diffusion; factors of diffusion: C133_diffusion_more, whose hypotheses allow larger totals. The restriction of diamond differencing is part of the statement and C145_thick shows the need for it.
* **C146** Diffusion: symmetric, repeated and uniform problems have the fluxes of their part – proved, 10 theorems. One relation between problems (Folds, axis by axis Over) covers all the cases; C146_same, _mirror, _half, _flat and _lattice give the axes. Sides with albedo -1 (zero flux) are not covered.
* **C147** Adjoint fluxes are importances, and with them perturbation theory gives the change of the multiplication factor – proved, 11 theorems. Diffusion: C147_importance, _orthogonal, _keff, _exact, _second and _worse, about the matrices the code assembles. Transport: C147_transport and _transport_worse for problems with the pairing of opposite sweeps, C147_1D, _2D and _3D for the schemes. Step characteristics is not covered: its closure depends on the total cross section.
* **C148** Homogenised few-group constants keep the multiplication factor of the cell they were made from – partial, 17 theorems. The full statement fails (C148_claim_fails): where no fission takes place in a coarse group homogenize sets no spectrum, so that fuel with fast births and slow fissions gets constants without births and without any mode (C148_births_lost, C148_thermal); spectra are averaged with the neutrons made in the last fine group alone (C148_spectra), zero by zero if there are none (C148_last_group). Proved for one common spectrum, production in the last group and fissions in every coarse group that emits: C148_medium_partial, C148_transport_partial, C148_diffusion_partial and C148_two_step_partial, with the balance of the cell from C148_conserved, C148_mode, C148_1D, _2D, _3D and C148_diffusion_mode, and the filled domain from C148_filled and C148_diffusion_filled.
* **C149** A group determines its fluxes at the sides of the domain, and how many mirrors leave them open – partial, 13 theorems. The full statement fails (C149_claim_fails): a rectangle with four reflecting sides and diamond differencing has, for every angle, a pattern of alternating signs at the sides that any solution can be changed by (C149_undetermined), and nothing else (C149_mirrors); a box whose sides across two directions reflect has one such pattern for every layer (C149_layers). Such a pattern put on the boundary before a solve is still there after any number of passes of source iteration, which find the same fluxes in the cells (C149_kept, C149_silent). Proved: cells and sides that do not reflect always (C149_open_sides), slabs (C149_1D, C149_1D_sc), step differencing and step characteristics on rectangles (C149_2D_step, C149_2D_sc), diamond differencing on rectangles with a side that does not reflect (C149_2D_partial) and in boxes with such sides across two directions (C149_3D_partial).
* **C150** The linear system of a group has exactly one solution, and which mirrors make it singular – partial, 13 theorems. The full statement fails (C150_claim_fails): with diamond differencing a rectangle with four reflecting sides has a singular operator (C150_four_mirrors), whose null vectors are exactly the alternating patterns, one for every angle (C150_mirrors); so has a box with mirrors across y and z, whatever its sides across x are (C150_tube). Proved: the null vectors of any group that scatters less than it collides have no flux in the cells and at the sides only fluxes that go with none (C150_kernel), so without such fluxes every right-hand side has exactly one solution (C150_solvable) and with them not (C150_singular); slabs (C150_1D, C150_1D_sc), rectangles with step differencing and step characteristics (C150_2D_step, C150_2D_sc), with diamond differencing if a side does not reflect (C150_2D_partial), boxes if sides across two directions do not (C150_3D_partial).
* **C151** The linear system of coupled groups has exactly one solution, and which mirrors make it singular – partial, 12 theorems. The full statement fails (C151_claim_fails): with diamond differencing a rectangle with four reflecting sides has a singular operator as soon as there is one group in the block and one angle (C151_four_mirrors), and so has a box with mirrors across y and z (C151_tube). Proved: the null vectors of any coupled groups have no flux in the cells and in every group only fluxes at the sides that go with none (C151_kernel), so without such fluxes every right-hand side has exactly one solution (C151_solvable) and with them in a single group not (C151_singular); slabs (C151_1D, C151_1D_sc), rectangles with step differencing and step characteristics (C151_2D_step, C151_2D_sc), with diamond differencing if a side does not reflect (C151_2D_partial), boxes if sides across two directions do not (C151_3D_partial).
* **C152** GMRES run on a group, or on coupled groups, ends with their fluxes – proved, 14 theorems. C152_group and C152_groups, run on the operators of C124 and C125 with the solver of C95: hypotheses discharged by C150 and C151 in C152_1D, _1D_sc, _2D, _2D_step, _2D_sc, _3D and C152_groups_1D, _2D, _2D_step, _2D_sc, _3D; C152_open adds that there is a flux to find. Exact arithmetic over any ordered field with a square root; positive absolute tolerance. Where mirrors make the operator singular (C150, C151) nothing is claimed. The multigroup diffusion preconditioner is singular if a side reflects (C111_boundary_zero), so it is not among the preconditioners meant then.
* **C153** Without preconditioner GMRES finds the cell fluxes also where mirrors make the system singular – proved, 6 theorems. C153_group and C153_groups from the energy balance of C150 and C151 (no flux leaves a null vector of the operator behind, so null space and range meet only in zero and every right-hand side the solvers build is in the range), discharged for diamond differencing in C153_2D, _3D, _groups_2D, _groups_3D; slabs and step schemes are never singular (C150, C152). Exact arithmetic over any ordered field with a square root; positive absolute tolerance. With a preconditioner nothing is claimed for singular systems.
* **C154** Coupled groups determine their fluxes at the sides of the domain, and how many mirrors leave them open – partial, 9 theorems. The full statement fails (C154_claim_fails): between four mirrors diamond differencing leaves one amount of an alternating pattern per group and angle open; any amounts are possible, and nothing else (C154_mirrors). Proved: cells and sides that do not reflect always (C154_open_sides), slabs (C154_1D, C154_1D_sc), step differencing and step characteristics on rectangles (C154_2D_step, C154_2D_sc), diamond differencing on rectangles with a side that does not reflect (C154_2D_partial) and in boxes with such sides across two directions (C154_3D_partial).
* **C155** GMRES run on a diffusion problem ends with its fluxes – proved, 2 theorems. C155_diffusion from the uniqueness of C132 and the GMRES theorems of C95; C155_jacobi shows that no preconditioner and the Jacobi preconditioner on either side meet its hypotheses. Exact arithmetic over any ordered field with a square root; positive absolute tolerance. The incomplete factorizations are covered where they are nonsingular, which is not shown here.
* **C156** Jacobi and Gauss-Seidel solve every diagonally dominant system – proved, 10 theorems. C156_jacobi, C156_gauss_seidel (one sweep), C156_sweeps, C156_residual, C156_successive (what the monitored norms say about the error), C156_solves (whole solves), C156_norms (the absolute norms of the vector class meet its hypotheses, over the reals), C156_wellformed (assembled matrices), C156_dominant and C156_diffusion (the diffusion operator). Exact arithmetic; C156_solves over any Archimedean ordered field. The relative kinds of norm are not covered.
* **C157** Jacobi and Gauss-Seidel keep fluxes non-negative and enclose the solution – proved, 7 theorems. C157_monotone, C157_side, C157_positive, C157_rising, C157_falling (one sweep), C157_enclosure (whole solves), C157_diffusion (the diffusion operator). Exact arithmetic over any ordered field.
* **C158** Richardson iteration that reports success has solved the system – partial, 8 theorems. The full statement is C158Claim; it is false (C158_claim_fails): with a left preconditioner the first residual compares the unpreconditioned product with the preconditioned right-hand side, so success can be reported at once for a wrong vector whatever the tolerance (C158_false_success). Proved: C158_plain_partial (no preconditioner, everything claimed) and C158_jacobi_partial (Jacobi preconditioner, success after at least one iteration; the threshold is then still relative to the wrong first residual) and C158_zero_partial (Jacobi preconditioner, started from zero: everything claimed), from C158_step and C158_jacobi_step; C158_succeeds: with enough iterations allowed every solve reports success. Exact arithmetic over any ordered field.

## Where the code does not do what a user relies on

Each is a theorem with a concrete witness (or for every input), named in `MANIFEST.json`:

* mesh cell numbers collide beyond 2^32 cells; a coarse-mesh map shorter than the coarse mesh is read
  past its end; cells are mislocated in meshes that do not start at the origin;
* pins of different widths, rectangular assemblies and very thin rings give wrong or negative counts;
* `vec_max`/norm variants are not what their names say (`LINFREL` is not relative);
* a material keeps its up-scatter cutoff and down-scatter flag after the data changed, in adjoint mode the
  flag is the forward one, and `set_nu_sigma_f` is overwritten by `finalize`;
* the down-scatter source block counts a group twice; the multigroup Krylov solve and the within-group one
  count some sources twice;
* sparse matrices: off-diagonal access returns zero, an empty row makes assembly undefined, the triplet
  overload overruns; ILU(0) is not the incomplete factorisation; loss operators cannot be rebuilt;
* octant order given by the user is applied only if complete; diamond difference makes negative fluxes;
* quadratures: the adjoint octant tables, Simpson weights for 3k+2 points, Gauss–Chebyshev totals,
  negative level-symmetric weights from order 20, Tabuchi–Yamamoto with four angles, "asqr-tg", ignored
  normalisation, one-dimensional user sets;
* periodic boundaries copy the wrong side; region boxes and ray/box tests are wrong on faces; tracing reads
  past an empty point list; track normalisation is applied twice to shared segments;
* state scaling and clearing miss higher moments; homogenised spectra; precursor negativity;
* bases: sign and normalisation errors; an "albedo" entry makes every side reflecting;
* CMFD relaxation and entries dropped at assembly; restriction drops entries for odd coarsening;
* the text parser: rectangular meshes rejected, three-dimensional counts shifted, `nu_sigma_f` ignored;
* region means loop over cells; relaxed power iteration does not reproduce an eigenpair;
* GMRES takes two iterations fewer than its limit and then still reports "running"; the preconditioner and
  side read from the database are never applied; an exact starting guess with zero absolute tolerance
  divides zero by zero;
* the sweep of the method of characteristics does nothing; void regions divide by zero in its equation, and
  the weight of the old direction is used when only the azimuth changes;
* eigenvalue solvers: power iteration never finds a negative eigenvalue; a limit raised after construction
  writes past the residual array; a second operator given once is kept for good; a preconditioner for a
  standard problem dereferences a null pointer; Davidson reports failure when it converges at the limit,
  breaks down for an exact preconditioner, and does not grow subspaces of size one; Eispack returns complex
  eigenvalues' real parts as eigenpairs and never reports success;
* the linear solver creator turns the divergence check off;
* the diffusion solver stores a positive outgoing current at reflecting sides with zero incoming; in adjoint
  mode a solve at another multiplication factor uses an operator of one group; the stored cell currents
  ignore the low faces and carry a wrong scale.
* a refused `set_solver` leaves the old solver of a fixed source manager in force; `iterate` never rebuilds
  the group sources, so every fission generation after the first is zero; an eigenvalue manager whose
  multigroup solver is unknown reports success with eigenvalue zero.
* in adjoint mode the diffusion eigenvalue solver pairs the forward gain operator with the transposed loss
  operator, which has other eigenvalues.
* coarse-mesh acceleration ignores the multiplication factor of a fixed source problem and every discrete
  source; its weighting current ignores the signs of the octants; with fission only in thermal groups the
  accelerated eigenvalue is zero; the loop makes one pass more than its limit and does not say that it
  reached it.
* the Arnoldi-type eigenvalue solver leaves a fission density that is not the production of its flux, and
  overruns the density with more than one moment per cell; the generalised Davidson solver dereferences a
  null pointer without up-scatter, and uses vectors of the wrong size when only the lower groups have it.
* the multigroup diffusion preconditioner sets the boundary part of its output to zero: with a reflecting
  side GMRES never changes the (zero) boundary values of its guess, and with the default left side it
  reports success with a flux that lacks the reflected part; it is built once for eigenvalue one and can be
  singular for others; in adjoint problems it indexes past its vectors.
* vectors of the linear algebra library have no assignment operator: assigning one frees memory twice, shares
  elements and leaks; their relative largest-difference norm is not relative, the mean norms of residuals
  throw, and a relative norm of one vector is zero whatever the vector.
* HDF5 files store the absorption cross section as the diffusion coefficient; a second write of the same kind, or
  any write to a file opened by reading, is silently ignored; after an input or a mesh was written and the file
  closed, nothing can be written any more; other writes after closing empty the file; nested databases with a
  slash in their name are lost; an incomplete file is undefined behaviour rather than an exception.
* The executable never chooses a solver for fixed-source problems: every such run prints a message and ends with a
  zero flux and exit code zero.  The exit code is zero after exceptions as well, an unknown problem type is taken for
  a fixed-source problem, and the default source strength is never used.
* Pictures of meshes and geometries with unequal numbers of rows and columns are written out of bounds or scrambled;
  pictures of equal values have no defined colour; pictures of a mesh are upside down, those of a geometry are not.
* The LRA material: one table entry is short of a digit (balance off by 9e-15 in the reflector), the rod's absorption
  jumps by 2e-7 at two seconds, two constants differ from the benchmark (as its comments say), and the temperatures
  reported by `T()` are always the initial ones.
* Spectra for condensation: Gauss-Seidel spectra of all materials but the first are zero, so that the coarse-mesh
  preconditioner divides by zero; fixed-source and Gauss-Seidel spectra use fission cross sections in place of
  production; pin cell spectra ignore the eigenvalue given; the fixed-source spectrum throws without its source entry.
* Reduced-order solver: the flux is made nonnegative entry by entry, which spoils vectors with both signs; missing and
  short basis files are not reported; the energy-dependent kind overwrites three entries of the user's input.
* Threshold incomplete factorization: the limit on the number of values keeps the smallest ones of each side; the threshold
  test compares the value at the column numbered like the position and skips the value after a dropped one, reads outside
  the row for sparse rows, and the default threshold of 10^8 drops the diagonal.
* Tracks: sine and cosine are interchanged in the weights of tracks and in the numbers of entry points, so that weights do not
  add up to the width of a rectangle and the maximum spacing is exceeded; a tracker used for a second geometry keeps the
  tracks of the first one in three of the four octants and appends segments to them.
* Random numbers: the multiplier and the increment given to the constructor are ignored; with 54 to 62 bits the mask is rounded
  to a power of two and every number is zero or one; the signed product overflows from the second call on.
* OpenMP: the sweeps in one and three dimensions pass the shared moments to the cell equations instead of the thread's own, a
  race that loses contributions; in all dimensions every thread resets the current tally when it begins, without a barrier.
* Within-group GMRES: after a solve without `compute_boundary_flux` the entering fluxes stored at reflecting sides lack their
  uncollided part; periodic sides are neither unknowns of the operator nor updated, so the solver treats them as vacuum.
* Multigroup GMRES turns the boundary updates of the sweeper off when it has made its right-hand side and shares the sweeper with
  the within-group solver; source iteration, the default, turns them on only when it is constructed. From the second solve on
  (power iteration, time steps) groups outside the Krylov block keep the entering fluxes of the first at reflecting sides.
* Time stepping with flux moments only (`ts_discrete` 0, the default): the old flux enters every direction times the angular norm, as
  if it were isotropic, so a transport steady state drifts. A critical state found by the eigenvalue solvers, which use one
  spectrum, drifts too when delayed neutrons have their own.
* Midpoint steps with feedback: each further pass evaluates the material with the extrapolated, end-of-step physics, so converged
  passes do not satisfy the midpoint rule. A second `solve` starts from the physics variables the first one left.
* Solvers write into the client's input: the first solver built stores a database with the tolerance, limit and print level of that
  time under `outer_solver_db` (`inner_solver_db`), shared by transport and diffusion. `outer_tolerance` put afterwards is
  silently ignored by every later solver built from that input (`C127_frozen`). `EigenGD` overwrites `eigen_solver_type` in the
  client's `eigen_solver_db`; `ROMSolver` overwrites `outer_solver`, `outer_krylov_group_cutoff` and `eigen_solver`.
- **C128.** Source iteration stops on the change between two passes. Without reflecting sides that bounds the error by `r/(1-r)`
  times the tolerance; with them it does not: a thin cell between two mirrors, started from zero, gains flux of the order of its
  thickness per pass, so `inner_tolerance` is met by the first pass with a flux near zero (`C128_claim_fails`). GMRES with
  diamond differencing and four reflecting sides works with a singular matrix: entering fluxes of alternating sign
  reproduce themselves (`C128_singular`); the cell fluxes are determined nevertheless (`C128_system`).
- **C129.** The multigroup Gauss–Seidel solver warns only about its outer loop (MGSolverGS.i.hh:80-84), and the inner
  warning is commented out (WGSolverSI.i.hh:81-85).  A problem of one group, or one that only scatters downward, is not
  iterated, so its group solves may stop at `inner_max_iters` with any error and nothing is printed
  (`C129_claim_fails`: 1/3 is returned for 2/5).
- **C130**: an adjoint solve transposes the group coupling only.  The sweeps do not turn around (`Sweeper::set_adjoint`
  has no caller and its effect is commented out, Sweeper.cc:140-141), so scalar fluxes are right (the discrete problem is
  reciprocal), but the angular flux stored for a direction is the importance of the opposite direction
  (`C130_claim_fails`: weighting a beam with it gives 7/18 for 1/6).
- **C132**: diamond differencing is used without a negative flux fix-up, so an absorber thicker than two mean free paths along
  the direction gives negative fluxes downstream (`C132_claim_fails`: unit flux on a slab of two cells of four mean free
  paths gives a flux of -1/18 in the second).  `MGDiffusionSolver::fill_boundary` stores negative outgoing partial currents
  beside incident ones (`C132_current_fails`: a unit current on a thin absorber stores -3/85; diffusion theory, not the
  discretisation, is the cause).
- **C133, C134**: no deviation found.  Power iteration starts its density from the yields summed over the groups in adjoint mode
  too (`FissionSource::initialize`), which is why C134 asks for a fissile cell with a positive yield; with exact inner
  solves the start does not matter otherwise.  The stopping test compares two flux densities, not eigenvalues; the stored
  eigenvalue is within a multiple of the tolerance that depends on the problem (`C134_returned`).
- **C135**: no deviation of backward Euler.  The other schemes do not keep signs (`C135_scheme`: a pure absorber, flux one, step
  of ten inverse collision rates: extrapolated schemes give -2/3 in the first step, the schemes of order two and more without
  extrapolation -7/253 in the second); nothing in `TimeStepper` limits the step or reports this, and the default for orders
  two and more is to extrapolate.  A step longer than the inverse of the growth rate makes the step problem supercritical and
  its exact solution negative (`C135_long_step`).
- **C136**: no deviation.  `Equation_SD_1D.hh:31` calls step differencing a first order method; `C136_step_first_order` confirms that it
  is no better and `C136_rate` that it is no worse.
- **C137**: no deviation.
- **C138**: no deviation.  The coefficients at sides and between cells of different widths and materials keep the second order.
- **C139**: no deviation.
- **C140**: no deviation.
- **C141**: `Equation_SC_2D` (Equation_SC_2D.i.hh:21-74) takes the flux on a face constant along it, so a column uniform in y between
  mirrors gets a flux that depends on its height (`C141_characteristics_fails`); diamond and step differencing do not have this.
- **C142**: backward differences of order four, five and six (`BDF4` to `BDF6`) converge at order three only, and those of order three to
  six at order two only if `ts_no_extrapolation` is set (`C142_exactly_partial`, `C142_claim_fails`).  Step `i` below the order uses the
  difference of order `i` with the full step (TimeStepper.cc:230-231), so the first step leaves an error of order three (extrapolated
  half step, TimeStepper.cc:238) or two (whole step), which later steps carry along.  A user who picks `BDF4` for accuracy gets
  no better rate than with `BDF3`.
- **C143**: the default tolerances do not meet what C143 asks for by themselves: power iteration (`eigen_tolerance`), Gauss–Seidel
  (`outer_tolerance`) and within-group iteration (`inner_tolerance`) all default to 1e-5 (Solver.cc:29), and nothing relates
  the inner ones to the outer one.  `C143_biased` shows that the run cannot notice: its stopping test compares successive densities, which a
  consistently biased solver reproduces exactly.
- **C144**: `print_matlab` does not check that the file could be opened; `fprintf` to a null pointer is undefined (Matrix.cc:266,
  MatrixDense.cc:105, Vector.cc:221).  The file of a sparse matrix does not hold its dimensions, so trailing columns without entries are lost
  (`C144_width_lost`); trailing rows only seem safe because assembly gives each row within the square part a diagonal entry.
- **C145**: no deviation of step differencing and step characteristics.  Diamond differencing in a cell of four mean free paths hands on a negative flux, and
  behind it more absorption raises the flux (`C145_thick`); the code neither limits the width nor reports negative fluxes.
- **C146**: no deviation.
- **C147**: no deviation; the angular fluxes of the adjoint mode have to be read in the opposite direction (see C130).
- **C148**: `homogenize` sets `chi` only where the coarse group itself fissions (Homogenize.cc:168-174), so two-group constants of fuel that emits fast and fissions slow have no births at all; `temp_fd` is assigned instead of accumulated (148-150, see C44), so the spectrum is weighted with the production in the last fine group only.
- **C149**: between four mirrors diamond differencing leaves the boundary fluxes open by an alternating pattern per angle (`C149_undetermined`); what `boundary()` returns then depends on what the boundary held before (`C149_kept`). `Reflective::update` (Reflective.i.hh:20-55) copies the pattern on unchanged. Scalar and angular fluxes in the cells are not affected.
- **C150**: with mirrors on all four sides of a rectangle, or across y and z of a box, the diamond-difference operator of `WGTransportOperator::multiply` (WGTransportOperator.cc:73-115) is singular, with one null vector per angle (per angle and layer in a box). The system the solver builds still has solutions with the right flux (`C128`), but not one only, and what is proved of GMRES for nonsingular systems (`C95`) does not apply.
- **C151**: the same holds for `MGTransportOperator::multiply` (MGTransportOperator.cc:92-170): between mirrors on all four sides of a rectangle, or across y and z of a box, the operator over any block of groups is singular with diamond differencing, one null vector per group and angle (per group, angle and layer in a box).
- **C153**: the singular systems of C150 and C151 do no harm to GMRES without preconditioner; boundary entries then end wherever the starting vector and the search put them, so `boundary()` after the solve still depends on them.
- **C154**: the same alternating patterns of C149 stay open in every group of a multigroup problem between four mirrors, independently of each other (`C154_mirrors`).
- **C158**: with a left preconditioner `Richardson::solve_impl` forms its first residual as the relaxed, unpreconditioned product minus the preconditioned right-hand side (Richardson.i.hh:27-49). Solving `x / 2 = 1` from 4 with the Jacobi preconditioner it reports success without an iteration, for every tolerance, though the solution is 2; relative tolerances are relative to this number as well.
## Which parts of the code are modelled

By directory of `/repo/src`: files cited by model definitions, with the model modules that cite them.  Only the
lines cited in the definitions are modelled.

* angle: `AbuShumaysDoubleRange.cc` (QuadTables), `AbuShumaysQuadrupleRange.cc` (QuadTables), `AzimuthalQuadrature.hh` (QuadTables), `AzimuthalQuadrature.t.hh` (QuadGen), `BaseGC.hh` (Angle, QuadGen), `BaseGL.hh` (Angle, QuadGen), `BaseQuadrature.hh` (Angle), `BaseUniform.hh` (Angle, QuadGen), `LevelSymmetric.cc` (QuadTables), `MomentIndexer.cc` (Angle), `MomentIndexer.i.hh` (Angle), `MomentToDiscrete.i.hh` (Angle), `PolarQuadrature.hh` (QuadTables), `PolarQuadrature.t.hh` (QuadGen), `ProductQuadrature.cc` (Angle), `Quadrature.cc` (Angle, Sweep), `Quadrature.i.hh` (Angle, Sources), `QuadratureFactory.cc` (QuadTables), `SphericalHarmonics.cc` (Angle), `TabuchiYamamoto.cc` (QuadTables), `TriGauss.hh` (QuadTables), `UniformEqual.cc` (QuadGen), `UserQuadrature.hh` (QuadTables)
* boundary: `BoundaryFactory.t.hh` (Boundary), `BoundarySN.cc` (Boundary, WGReflect), `BoundarySN.i.hh` (Boundary, WGReflect), `BoundaryTraits.hh` (DiffSolve), `FixedBoundary.i.hh` (Boundary), `Periodic.hh` (Boundary), `Periodic.i.hh` (Boundary), `Reflective.i.hh` (Boundary)
* callow/matrix: `Matrix.cc` (Diffusion, Matlab, Matrix), `Matrix.hh` (Matrix), `Matrix.i.hh` (Matrix), `MatrixDense.cc` (Dense, Matlab), `MatrixDense.hh` (Dense, Matlab), `MatrixDense.i.hh` (Dense), `MatrixShell.cc` (Matlab), `SparseRow.cc` (Dense, Ilut), `SparseRow.hh` (Dense), `Triplet.hh` (Matrix)
* callow/preconditioner: `PCILU0.cc` (Solver), `PCILU0.i.hh` (Solver), `PCILUT.cc` (Ilut, Solver), `PCJacobi.cc` (Solver), `PCJacobi.i.hh` (Solver)
* callow/solver: `Davidson.cc` (EigenSolve), `EigenSolver.cc` (EigenSolve), `EigenSolver.hh` (EigenSolve), `EigenSolverCreator.cc` (EigenSolve, SolverDb), `Eispack.cc` (EigenSolve), `GMRES.cc` (Gmres), `GMRES.i.hh` (Gmres), `GaussSeidel.hh` (EigenSolve), `GaussSeidel.i.hh` (Solver), `Jacobi.i.hh` (Solver), `LinearSolver.cc` (Gmres, Ilut, Solver), `LinearSolver.hh` (Gmres, Solver), `LinearSolverCreator.cc` (EigenSolve, SolverDb), `PowerIteration.i.hh` (EigenSolve), `Richardson.i.hh` (Solver)
* callow/utils: `CallowDefinitions.hh` (CallowNorm, Solver)
* callow/vector: `Vector.cc` (CallowVector, Matlab), `Vector.hh` (CallowVector), `Vector.i.hh` (CallowNorm, CallowVector)
* drivers: `Execute.cc` (Execute), `StupidParser.cc` (Parser), `StupidParser.hh` (Parser), `detran.cc` (Execute)
* external_source: `ConstantSource.cc` (Sources), `ConstantSource.hh` (Sources), `DiscreteSource.cc` (Sources), `DiscreteSource.hh` (Sources), `ExternalSource.hh` (Sources), `IsotropicSource.cc` (Sources), `IsotropicSource.hh` (Sources)
* geometry: `Assembly.cc` (Lattice), `CSG.cc` (Geometry), `CSG.hh` (Geometry), `Core.cc` (Lattice), `Geometry.cc` (Geometry), `Mesh.cc` (Diffusion, Mesh, Parser), `Mesh.i.hh` (Diffusion, Mesh, Rates), `Mesh1D.cc` (Hdf5, Parser), `Mesh2D.cc` (Hdf5, Parser), `Mesh3D.cc` (Hdf5, Parser), `PinCell.cc` (Lattice), `Point.cc` (Geometry), `Point.hh` (Geometry), `QuadraticSurface.cc` (Geometry), `QuadraticSurfaceFactory.hh` (Geometry), `Ray.hh` (Geometry), `Region.cc` (Geometry), `RegionFactory.cc` (Geometry), `Surface.hh` (Geometry), `Track.cc` (Geometry), `Track.hh` (Geometry), `TrackDB.cc` (Geometry), `Tracker.cc` (Geometry, Tracker)
* ioutils: `ColorMap.cc` (Ppm), `ColorMap.hh` (Ppm), `IO_HDF5.cc` (Hdf5), `IO_HDF5.t.hh` (Hdf5), `IO_HDF5_Traits.hh` (Hdf5), `PPMOutput.cc` (Ppm), `PPMPlotter.cc` (Ppm), `PPMPlotter.hh` (Ppm)
* kinetics: `BDFCoefficients.hh` (Kinetics), `KineticsMaterial.cc` (Kinetics, Lra), `KineticsMaterial.i.hh` (Kinetics), `LinearExternalSource.i.hh` (Kinetics), `LinearMaterial.cc` (Kinetics), `PulsedExternalSource.i.hh` (Kinetics), `SyntheticDiscreteSource.i.hh` (Kinetics), `SyntheticMomentSource.i.hh` (Kinetics), `TimeDependentMaterial.cc` (Kinetics, Lra), `TimeIndependentMaterial.cc` (Kinetics)
* material: `Material.cc` (Hdf5, Homog, Kinetics, Lra, MatCalls, Material, Parser), `Material.hh` (MatCalls, Material), `Material.i.hh` (MatCalls)
* orthog: `CLP.cc` (Orthog), `ChebyshevU.cc` (Orthog), `DCP.cc` (Orthog), `DCT.cc` (Orthog), `DDF.cc` (Orthog), `DLP.cc` (Orthog), `Jacobi01.cc` (Orthog), `OrthogonalBasis.cc` (Orthog), `OrthogonalBasis.i.hh` (Orthog), `TransformedBasis.cc` (Orthog), `UserBasis.cc` (Orthog)
* postprocess: `ReactionRates.cc` (Rates)
* solvers: `EigenvalueManager.cc` (EigenDiff, Managers), `FixedSourceManager.cc` (EigenOps, Managers, SolverDb), `FixedSourceManager.hh` (Managers), `Solver.cc` (SolverDb), `Solver.hh` (EigenDiff)
* solvers/eigen: `EigenArnoldi.cc` (EigenOps, SolverDb), `EigenArnoldi.i.hh` (EigenOps), `EigenCMFD.cc` (CmfdUpdate), `EigenDiffusion.cc` (EigenDiff, SolverDb), `EigenGD.cc` (EigenOps, SolverDb), `EigenPI.i.hh` (EigenPI), `Eigensolver.cc` (EigenDiff), `EnergyDependentEigenLHS.cc` (EigenOps), `EnergyIndependentEigenOperator.cc` (EigenOps)
* solvers/mg: `CMFDLossOperator.cc` (CmfdUpdate, Diffusion), `CMFDLossOperator.hh` (CmfdUpdate), `DiffusionGainOperator.cc` (Diffusion), `DiffusionLossOperator.cc` (Diffusion, Restrict), `MGCMDSA.cc` (Precond, Restrict), `MGCoarseMeshPreconditioner.cc` (Restrict), `MGDSA.cc` (Precond), `MGDiffusionSolver.cc` (DiffSolve, EigenDiff, Managers, SolverDb), `MGPreconditioner.cc` (Precond, Restrict), `MGScatterFissionOperator.cc` (EigenOps, MGSolve), `MGSolver.cc` (EigenDiff, SolverDb), `MGSolverCMFD.cc` (CmfdUpdate), `MGSolverGMRES.cc` (EigenOps, MGReflect, MGSolve, SolverDb), `MGSolverGMRES.i.hh` (MGReflect, MGSolve), `MGSolverGS.cc` (GaussSeidel, MGSolve), `MGSolverGS.i.hh` (GaussSeidel, MGSolve), `MGSweepOperator.cc` (EigenOps), `MGTCDSA.cc` (Precond, SolverDb), `MGTransportOperator.cc` (MGReflect, MGSolve), `MGTransportSolver.cc` (Managers, SolverDb), `SpectrumFS.cc` (Spectrum), `SpectrumGS.cc` (Spectrum), `SpectrumPinCell.cc` (Spectrum)
* solvers/rom: `OperatorProjection.cc` (Rom), `ROMBasis.cc` (Rom), `ROMSolver.cc` (Rom, SolverDb)
* solvers/time: `LRA.cc` (Lra), `LRA.hh` (Lra), `TimeStepper.cc` (Kinetics, Transient)
* solvers/wg: `PC_DSA.i.hh` (Precond), `WGDiffusionLossOperator.cc` (Diffusion), `WGSolver.cc` (Managers, SolverDb, Sources), `WGSolverGMRES.cc` (SolverDb), `WGSolverGMRES.i.hh` (MGSolve, WGReflect), `WGSolverSI.cc` (GaussSeidel, WGReflect), `WGSolverSI.i.hh` (MGReflect, MGSolve, WGReflect), `WGTransportOperator.cc` (MGSolve, WGReflect)
* transport: `BoundaryTally.hh` (Coarse), `CoarseMesh.cc` (CmfdUpdate, Coarse), `CurrentTally.cc` (Coarse), `CurrentTally.i.hh` (Coarse, Threads), `Equation_DD_1D.i.hh` (Sweep), `Equation_DD_2D.cc` (Sweep), `Equation_DD_2D.i.hh` (Sweep), `Equation_DD_3D.cc` (Sweep), `Equation_DD_3D.i.hh` (Sweep), `Equation_MOC.hh` (Moc), `Equation_SC_1D.i.hh` (Sweep), `Equation_SC_2D.cc` (Sweep), `Equation_SC_2D.i.hh` (Sweep), `Equation_SC_MOC.cc` (Moc), `Equation_SC_MOC.hh` (Moc), `Equation_SC_MOC.i.hh` (Moc), `Equation_SD_1D.i.hh` (Sweep), `Equation_SD_2D.cc` (Sweep), `Equation_SD_2D.i.hh` (Sweep), `FissionSource.cc` (EigenDiff, EigenOps, Managers, Material), `FissionSource.i.hh` (Kinetics, Managers, Material), `Homogenize.cc` (CmfdUpdate, Homog), `ScatterSource.i.hh` (Material), `State.cc` (EigenOps, Execute, Homog, Managers), `SweepSource.hh` (Sources), `SweepSource.i.hh` (MGSolve, Managers, Sources, Sweep, WGReflect), `Sweeper.cc` (Sweep), `Sweeper.t.hh` (Sweep), `Sweeper1D.i.hh` (Coarse, Sweep, Threads, WGReflect), `Sweeper2D.i.hh` (Coarse, Sweep, Threads), `Sweeper2DMOC.cc` (Moc), `Sweeper3D.i.hh` (Coarse, Sweep, Threads)
* utilities: `Definitions.hh` (Mesh), `Factory.hh` (Util), `Factory.i.hh` (Util), `InputDB.cc` (Util), `InputDB.hh` (Hdf5, Util), `InputDB.i.hh` (SolverDb, Util), `Iterators.hh` (Util), `Iterators.i.hh` (Util), `MathUtilities.hh` (Angle, MGSolve, Restrict, Util), `Random.hh` (Random), `SoftEquivalence.hh` (Geometry)

Not modelled (no definition cites them; headers that only declare what a modelled `.cc` defines are listed
too):

* angle: AbuShumaysDoubleRange.hh, AbuShumaysQuadrupleRange.hh, AzimuthalQuadrature.t.cc, Collocated.cc, Collocated.hh, LevelSymmetric.hh, MomentIndexer.hh, MomentToDiscrete.cc, MomentToDiscrete.hh, PolarQuadrature.t.cc, ProductQuadrature.hh, ProductQuadratureAP.hh, ProductQuadratureAP.t.cc, ProductQuadratureAP.t.hh, Quadrature.hh, QuadratureFactory.hh, SphericalHarmonics.hh, TabuchiYamamoto.hh, UniformCyclic.cc, UniformCyclic.hh, UniformEqual.hh, detran_angle.hh
* boundary: BoundaryBase.cc, BoundaryBase.hh, BoundaryCondition.hh, BoundaryConditionMOC.hh, BoundaryDiffusion.cc, BoundaryDiffusion.hh, BoundaryDiffusion.i.hh, BoundaryFactory.cc, BoundaryFactory.hh, BoundaryMOC.cc, BoundaryMOC.hh, BoundaryMOC.i.hh, BoundarySN.hh, FixedBoundary.cc, FixedBoundary.hh, Reflective.hh, ReflectiveMOC.hh, ReflectiveMOC.i.hh, Vacuum.hh, VacuumMOC.hh
* callow: callow_config.hh
* callow/matrix: MatrixBase.cc, MatrixBase.hh, MatrixShell.hh, MatrixShell.i.hh
* callow/preconditioner: PCILU0.hh, PCILUT.hh, PCIdentity.hh, PCJacobi.hh, PCShell.cc, PCShell.hh, Preconditioner.cc, Preconditioner.hh, Preconditioner.i.hh
* callow/solver: ArnoldiDecomposition.hh, Davidson.hh, EigenSolver.i.hh, EigenSolverCreator.hh, Eispack.hh, GMRES.hh, GaussSeidel.cc, Jacobi.cc, Jacobi.hh, LinearSolver.i.hh, LinearSolverCreator.hh, PetscSolver.cc, PetscSolver.hh, PetscSolver.i.hh, PowerIteration.cc, PowerIteration.hh, Richardson.cc, Richardson.hh, SlepcSolver.cc, SlepcSolver.hh, SlepcSolver.i.hh
* callow/utils: Initialization.hh, Typedefs.hh
* drivers: Execute.hh
* external_source: BoundarySource.hh, ExternalSource.cc
* geometry: Assembly.hh, Core.hh, Geometry.hh, GeometryMesher.cc, GeometryMesher.hh, Macrobody.cc, Macrobody.hh, Mesh.hh, Mesh1D.hh, Mesh2D.hh, Mesh3D.hh, PinCell.hh, QuadraticSurface.hh, Region.hh, RegionFactory.hh, Segment.cc, Segment.hh, Track.i.hh, TrackDB.hh, Tracker.hh, detran_geometry.hh
* ioutils: IO_HDF5.hh, PPMOutput.hh, PSPlotter.hh, SiloOutput.cc, SiloOutput.hh, StdOutUtils.hh
* kinetics: KineticsMaterial.hh, LinearExternalSource.cc, LinearExternalSource.hh, LinearMaterial.hh, MultiPhysics.cc, MultiPhysics.hh, Precursors.cc, Precursors.hh, Precursors.i.hh, PulsedExternalSource.cc, PulsedExternalSource.hh, PyTimeDependentMaterial.cc, PyTimeDependentMaterial.hh, SyntheticDiscreteSource.cc, SyntheticDiscreteSource.hh, SyntheticMomentSource.cc, SyntheticMomentSource.hh, SyntheticSource.cc, SyntheticSource.hh, SyntheticSource.i.hh, TimeDependentExternalSource.hh, TimeDependentMaterial.hh, TimeIndependentMaterial.hh
* material: detran_material.hh
* orthog: CLP.hh, ChebyshevU.hh, ContinuousOrthogonalBasis.cc, ContinuousOrthogonalBasis.hh, DCP.hh, DCT.hh, DDF.hh, DLP.hh, Jacobi01.hh, OrthogonalBasis.hh, OrthogonalBasisParameters.hh, TransformedBasis.hh, UserBasis.hh, detran_orthog.hh
* postprocess: ReactionRates.hh
* solvers: EigenvalueManager.hh, Manager.hh, SweepOperator.cc, SweepOperator.hh, TimeDependentManager.cc, TimeDependentManager.hh, TransportManager.hh
* solvers/eigen: EigenArnoldi.hh, EigenCMFD.hh, EigenDiffusion.hh, EigenGD.hh, EigenPI.cc, EigenPI.hh, Eigensolver.hh, EnergyDependentEigenLHS.hh, EnergyIndependentEigenOperator.hh, JFNK.hh
* solvers/mg: DiffusionGainOperator.hh, DiffusionLossOperator.hh, MGCMDSA.hh, MGCMTSA.hh, MGCoarseMeshPreconditioner.hh, MGDSA.hh, MGDiffusionSolver.hh, MGPreconditioner.hh, MGScatterFissionOperator.hh, MGSolver.hh, MGSolverCMFD.hh, MGSolverGMRES.hh, MGSolverGS.hh, MGSweepOperator.hh, MGTCDSA.hh, MGTransportOperator.hh, MGTransportSolver.hh, SpectrumBase.hh, SpectrumFS.hh, SpectrumGS.hh, SpectrumPinCell.hh
* solvers/rom: OperatorProjection.hh, ROMBasis.hh, ROMSolver.hh
* solvers/time: TimeStepper.hh
* solvers/wg: PC_DSA.cc, PC_DSA.hh, WGACMR.cc, WGACMR.hh, WGDiffusionLossOperator.hh, WGNonlinearAcceleration.hh, WGPreconditioner.cc, WGPreconditioner.hh, WGSolver.hh, WGSolver.t.hh, WGSolverGMRES.hh, WGSolverSI.hh, WGTransportOperator.hh
* transport: BoundaryTally.cc, CMR.cc, CMR.hh, CMR.i.hh, CoarseMesh.hh, CurrentTally.hh, DimensionTraits.hh, Equation.hh, EquationTypeTraits.hh, Equation_DD_1D.cc, Equation_DD_1D.hh, Equation_DD_2D.hh, Equation_DD_3D.hh, Equation_ES_1D.hh, Equation_SC_1D.cc, Equation_SC_1D.hh, Equation_SC_2D.hh, Equation_SD_1D.cc, Equation_SD_1D.hh, Equation_SD_2D.hh, FissionSource.hh, Homogenize.hh, ScatterSource.cc, ScatterSource.hh, State.hh, State.i.hh, Sweeper.hh, Sweeper1D.cc, Sweeper1D.hh, Sweeper2D.cc, Sweeper2D.hh, Sweeper2DMOC.hh, Sweeper2DMOC.i.hh, Sweeper3D.cc, Sweeper3D.hh
* utilities: Constants.hh, DBC.hh, GenException.cc, GenException.hh, Profiler.hh, TestDriver.hh, Timer.hh, TinyVector.hh, TinyVector.i.hh, Warning.hh, detran_utilities.hh

## Axioms

From `#print axioms` on every theorem of `MANIFEST.json`.

* `Classical.choice`, `Quot.sound`, `propext`: 1070 theorems – all not listed below.
* `Quot.sound`, `propext`: 155 theorems: Mesh.C01_index_roundtrip, Mesh.C01_index_bijective, Mesh.C02_mesh_map_is_last_added, Util.C05_get_is_last_put, Util.C05_check_iff_put, Util.C05_check_does_not_guard_get, Util.C05_size_counts_keys, Util.C05_keysOf_spec, Util.C06_register_result, Util.C06_isRegistered, Util.C07_range_reversed_not_empty, Matrix.C09_add_only_nodup, Matrix.C11_copy, Matrix.C12_preallocate_const, Matrix.C12_insert_row, Matrix.C12_add_row, Matrix.C12_insert_triplets, Matrix.C12_insert_column, Dense.C14_sorted, Dense.C14_verify, Dense.C14_insert_effect, Dense.C14_insert_return, Dense.C14_map_partial, Dense.C14_range_inconsistent, Solver.C18_richardson_preconditioned, Util.C20_normResLinf, Util.C20_normL1, Util.C20_normL2sq, Util.C20_normResL1_is_sum, Util.C20_vecMax_int, Util.C20_vecMin, Material.C22_set_downscatter_tran_changes_forward, Material.C23_within_group, Boundary.C27_boundary_linear, Boundary.C27_boundary_nonneg, Sweep.C27_sweep_linear_1D, Sweep.C27_sweep_linear_2D, Sweep.C27_sweep_linear_3D, Sweep.C29_exchange_sort, Sweep.C29_vacuum_first, Boundary.C30_pairs, Boundary.C30_mirror_exists, Boundary.C30_update, Boundary.C30_update_angle, Boundary.C30_update_only_incident, Boundary.C31_update_angle, Boundary.C31_update_group, Boundary.C31_update_group_witness, Boundary.C32_places, Angle.C33_tables, Angle.C33_entry, Angle.C33_adjoint_tables_reversed, Angle.C34_adjoint_history, Lattice.C37_core_pin_numbers_unique, Geom.C38_contains, Geom.C40_reverse, Geom.C40_double_reverse_ends, Geom.C40_double_reverse_path, Geom.C40_double_reverse_wrong, Geom.C40_volume, Coarse.C41_map, Coarse.C42_one_cell_ub, Coarse.C42_sweep3_nothing, Homog.C43_moments_partial, Homog.C43_one_moment, Homog.C43_angular, Homog.C43_current_kept, Homog.C44_first_group, Kin.C45_clamped, Kin.C45_material, Kin.C48_order, Orthog.C49_inverse_ptr_wrong, Orthog.C49_ddf_inverse_wrong, Diffusion.C50_albedo_entry, Restrict.C53_forward_defined, Restrict.C53_adjoint_undefined, Parser.C54_fine_rejected, EigenPI.C56_no_iterations, Geom.C58_contains_partial, Geom.C58_contains_in_box, Kin.C59_update, Util.C60_linspace_one, Util.C60_vecUnique, Util.C60_reversible_traverse, Util.C60_vector_helpers, Material.C62_last_write, Angle.C65_simpson_weights, Angle.C66_high_degree, Boundary.C67_set_covers, Boundary.C67_fixed_kept, Geom.C68_segments, Geom.C68_defined, Geom.C71_contains, Kin.C72_limit, Kin.C72_time, Kin.C75_no_accumulation, Kin.C75_wrapped, Orthog.C84_recurrence_partial, Parser.C87_words, Gmres.C96_database_preconditioner, Moc.C97_setup, Moc.C97_stale_angle, EigenSolve.C98_operator, EigenSolve.C99_size_zero, EigenSolve.C100_defaults, Diffusion.C101_refresh_adjoint, Diffusion.C101_current_flat, Sources.C102_isotropic, Sources.C102_discrete, Sources.C102_undefined, Sources.C102_flag, Managers.C103_solve_iff, Managers.C103_clean, Managers.C104_direct_partial, Managers.C104_vanish, Managers.C104_guess, Managers.C104_refreshed, CmfdUpd.C107_discrete_dropped, CmfdUpd.C107_keff_ignored, CmfdUpd.C107_loop, CmfdUpd.C107_kept, CmfdUpd.C108_loop, EigenOps.C109_overrun, Precond.C111_same_solutions, Precond.C111_boundary_zero, Precond.C111_adjoint_overrun, Precond.C111_coarse, Precond.C111_no_fine_correction, Hdf5.C114_foreign, Exec.C115_fixed_unsolved, Exec.C115_exit_zero, Exec.C115_unknown_type, Exec.C115_no_source, Exec.C115_scaling, Exec.C115_strength, Exec.C115_source_partial, Exec.C115_eigen_partial, Ppm.C116_fill_square, Ppm.C116_orientation, Spectrum.C118_gs_others, Spectrum.C118_gs_divides, Spectrum.C118_fs_missing, Spectrum.C118_pincell_keff, Spectrum.C118_pincell_finalized, Rom.C119_basis_missing, Rom.C119_basis_short, Tracker.C121_no_3D, Tracker.C121_defaults, Threads.C123_tally, MGReflect.C125_flag, WGReflect.C128_test, MGReflect.C129_loop, Matlab.C144_vector, Diffusion.C146_mirror, Diffusion.C146_half.
* `propext`: 12 theorems: Util.C05_put_isolated, Util.C06_lookup_is_first, Sweep.C29_user_order, Boundary.C32_in_out_disjoint, Boundary.C32_clear, Angle.C36_valid_index, Homog.C44_defaults, Gmres.C96_set_preconditioner, EigenSolve.C98_ops_claim_fails, Ppm.C116_maps, Rom.C119_keys, Random.C122_arguments.
* none: 4 theorems: Mesh.C01_overflow_collision, EigenSolve.C98_stale_B, EigenSolve.C98_ops_partial, EigenSolve.C98_preconditioner_null.
