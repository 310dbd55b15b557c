{"id": "C01", "title": "Mesh cell numbering is a bijection", "statement": "For a mesh with nx*ny*nz cells that fits the index type, index(i,j,k) of in-range indices is a valid cell number, cell_to_i/j/k invert it, and every cell number is the index of exactly one in-range (i,j,k). When the cell count exceeds the 32-bit index type the bijection may fail.", "quantifier": "all positive nx, ny, nz, all i<nx, j<ny, k<nz, all cells", "why_tests_cant": "A test samples a few mesh sizes; the claim ranges over every shape and every index, including the wrap-around limit.", "anchors": ["src/geometry/Mesh.i.hh: Mesh::index, cell_to_i, cell_to_j, cell_to_k"]}
{"id": "C02", "title": "Coarse material map reaches every fine cell", "statement": "After building a mesh from coarse edges and fine counts, the fine-mesh material map gives each fine cell exactly the material of the coarse cell that contains it, in all three directions, with no cell left at the default.", "quantifier": "all coarse subdivisions (any number of coarse cells, any positive fine counts), all maps, all fine cells", "why_tests_cant": "Tests use one or two small maps; nested prefix-sum loops can be wrong only for particular non-uniform subdivisions.", "anchors": ["src/geometry/Mesh.cc: Mesh::add_coarse_mesh_map, Mesh::add_mesh_map, Mesh::mesh_map"]}
{"id": "C03", "title": "Fine cells subdivide the domain exactly", "statement": "The fine cell widths in each direction add up to the total width (last coarse edge minus first), each coarse cell's fine cells add up to that coarse cell's width, and the cell volumes add up to the product of the width sums.", "quantifier": "all coarse edges and fine counts", "why_tests_cant": "Sum identities over arbitrary length meshes; floating tests check one mesh to a tolerance.", "anchors": ["src/geometry/Mesh.cc: Mesh::setup", "src/geometry/Mesh.i.hh: Mesh::dx, dy, dz, volume, total_width_x"]}
{"id": "C04", "title": "Point location returns the containing cell", "statement": "find_cell(p) is -1 exactly when p lies outside the box [0,wx]x[0,wy]x[0,wz]; otherwise the returned cell's interval in each active direction contains the point's coordinate measured from the low corner, and points on a shared face go to the lower cell.", "quantifier": "all meshes with positive widths, all points", "why_tests_cant": "Boundary and interior points form a continuum; only a few are sampled.", "anchors": ["src/geometry/Mesh.i.hh: Mesh::find_cell"]}
{"id": "C05", "title": "Input database behaves as six independent typed maps", "statement": "After any sequence of put calls, get<T>(key) returns the value most recently put under that key with type T; a put of another type or key never changes it; check(key) is true exactly when the key was put under some type; getting a key that exists only under another type is outside the contract and not diagnosed in release builds.", "quantifier": "all sequences of put operations over all keys, types and values", "why_tests_cant": "Histories are unbounded; cross-type interference only shows for particular interleavings.", "anchors": ["src/utilities/InputDB.hh: InputDB::put, get, check, size", "src/utilities/InputDB.i.hh"]}
{"id": "C06", "title": "Factory registration is first-wins and never silently replaced", "statement": "After any sequence of registrations, looking up a key gives the creator from the first registration of that key; registering returns true exactly for that first one; an unregistered key is reported by an exception.", "quantifier": "all registration sequences", "why_tests_cant": "Depends on static-initialisation order history that a unit test fixes once.", "anchors": ["src/utilities/Factory.hh: Factory::Register, IsRegistered, GetCreateFunction"]}
{"id": "C07", "title": "Group range enumerates the interval in travel order", "statement": "range(a,b,inclusive) lists the integers from a toward b, each exactly once in order, excluding b unless inclusive; it travels downward when a>b, so an empty ascending interval is not returned as empty.", "quantifier": "all integers a,b", "why_tests_cant": "The direction switch at a>b is invisible unless a test picks a reversed pair.", "anchors": ["src/utilities/MathUtilities.hh: range"]}
{"id": "C08", "title": "Sparse assembly preserves every inserted entry", "statement": "For a matrix filled by any successful sequence of single-entry INSERT and ADD calls and then assembled, multiplying by x gives for each row the sum over the inserted contributions a*x_j; sorting, trimming and diagonal padding change nothing observable by multiply.", "quantifier": "all row counts, all insertion sequences within capacity, all vectors", "why_tests_cant": "Needs every order and multiset of insertions; std::sort is unstable so the order of duplicates is unspecified.", "anchors": ["src/callow/matrix/Matrix.i.hh: Matrix::insert, multiply", "src/callow/matrix/Matrix.cc: assemble", "src/callow/matrix/Matrix.cc"]}
{"id": "C09", "title": "Assembled rows are sorted and hold their diagonal", "statement": "After assembly of a matrix whose rows all have an entry, the row pointers are a non-decreasing partition of the entry arrays, column indices in each row are non-decreasing, each of the square rows has an explicit diagonal entry and diagonal(i) points at an entry with column i. Assembly is undefined exactly when some row has no entry, spare capacity or not.", "quantifier": "all insertion histories", "why_tests_cant": "Corner cases (missing diagonal, empty row, full row) combine over unbounded matrices.", "anchors": ["src/callow/matrix/Matrix.cc: Matrix::assemble", "src/callow/matrix/Matrix.i.hh: start, diagonal, end, column"]}
{"id": "C10", "title": "Transpose multiply is the adjoint of multiply", "statement": "For every assembled sparse or dense matrix and vectors x,y of matching size, the dot product of A x with y equals that of x with A' y.", "quantifier": "all assembled matrices, all x,y", "why_tests_cant": "An identity over all matrices and vectors.", "anchors": ["src/callow/matrix/Matrix.i.hh: Matrix::multiply, multiply_transpose", "src/callow/matrix/MatrixDense.i.hh"]}
{"id": "C11", "title": "Element access agrees with multiply", "statement": "A(i,j) returns the (i,j) coefficient of the operator applied by multiply, i.e. A(i,j) = (A e_j)_i.", "quantifier": "all assembled matrices, all i,j", "why_tests_cant": "Existing tests look at diagonals and zeros; the search interval is what decides off-diagonal correctness.", "anchors": ["src/callow/matrix/Matrix.i.hh: Matrix::operator()"]}
{"id": "C12", "title": "Insertion respects preallocated capacity", "statement": "A single-entry INSERT succeeds exactly when the row has spare preallocated slots, an ADD succeeds when the entry already exists or spare slots remain, a failed call leaves the matrix unchanged, and the number of stored entries in a row never exceeds its capacity.", "quantifier": "all sequences of insert calls", "why_tests_cant": "Capacity is a history-dependent counter.", "anchors": ["src/callow/matrix/Matrix.i.hh: Matrix::insert", "src/callow/matrix/Matrix.cc: preallocate"]}
{"id": "C13", "title": "Dense matrix storage is a faithful two-index array", "statement": "insert(i,j) then read returns the inserted value and changes no other entry; row and column insertion write exactly that row or column; multiply is the matrix-vector product of what was inserted.", "quantifier": "all sizes, all indices, all sequences of insertions", "why_tests_cant": "Column-major index algebra must be injective for all sizes.", "anchors": ["src/callow/matrix/MatrixDense.i.hh: MDIDX", "src/callow/matrix/MatrixDense.i.hh: insert, insert_row, insert_col, multiply"]}
{"id": "C14", "title": "Sparse work row behaves as a finite map with sorted keys", "statement": "After any sequence of insert(INSERT/ADD) operations a sparse row keeps strictly increasing columns, and its value at every column equals that of a plain map updated by the same operations (with exact cancellation removing the entry).", "quantifier": "all operation sequences", "why_tests_cant": "Sortedness is an invariant over unbounded histories.", "anchors": ["src/callow/matrix/SparseRow.cc: SparseRow::insert, range, find"]}
{"id": "C15", "title": "Incomplete-LU application solves the two triangular systems", "statement": "Applying the preconditioner to b returns x with L U x = b, where L is the stored unit lower part and U the stored upper part.", "quantifier": "all stored factors with nonzero pivots, all b", "why_tests_cant": "The recurrences run over arbitrary sizes; convergence tests mask a wrong preconditioner because the outer iteration still converges.", "anchors": ["src/callow/preconditioner/PCILU0.i.hh: PCILU0::apply", "src/callow/preconditioner/PCILUT.cc: PCILUT::apply"]}
{"id": "C16", "title": "ILU(0) factors reproduce the matrix on its pattern", "statement": "For a matrix whose exact LU factorisation has no fill (for instance tridiagonal), the ILU(0) preconditioner stores exactly those factors.", "quantifier": "all tridiagonal matrices with nonzero pivots", "why_tests_cant": "Only visible as slower convergence in tests.", "anchors": ["src/callow/preconditioner/PCILU0.cc: PCILU0::PCILU0"]}
{"id": "C17", "title": "Jacobi preconditioner divides by the diagonal", "statement": "Applying the Jacobi preconditioner divides each component by the corresponding diagonal entry, leaves components with zero diagonal unchanged, and never divides by zero.", "quantifier": "all matrices and vectors", "why_tests_cant": "All-input statement.", "anchors": ["src/callow/preconditioner/PCJacobi.cc"]}
{"id": "C18", "title": "Stationary solvers stop only at genuine solutions", "statement": "A vector is left unchanged by one Jacobi, Gauss-Seidel or Richardson update if and only if it solves A x = b (nonzero diagonal or relaxation factor), so the iterations have no spurious fixed points, and the difference between successive iterates is a valid residual.", "quantifier": "all matrices with nonzero diagonal, all b, x", "why_tests_cant": "Quantifies over all systems.", "anchors": ["src/callow/solver/Jacobi.cc", "src/callow/solver/GaussSeidel.cc", "src/callow/solver/Richardson.cc"]}
{"id": "C19", "title": "Linear-solver status is truthful and iteration count bounded", "statement": "A solve reports success only if the last monitored residual is below max(rtol*initial, atol); it never performs more than the maximum number of iterations; if it stops without success it reports that the maximum was reached or divergence.", "quantifier": "all residual sequences (all operators), all tolerances and limits", "why_tests_cant": "The residual history is an arbitrary sequence.", "anchors": ["src/callow/solver/LinearSolver.cc: monitor, monitor_init", "src/callow/solver/Richardson.i.hh: solve_impl"]}
{"id": "C20", "title": "Vector norms and extrema are the mathematical ones", "statement": "norm(x,Linf) is the largest absolute component, norm L1 the sum of absolute values, vec_max the largest component, and relative residual norms are relative in every component.", "quantifier": "all vectors", "why_tests_cant": "Sign of the first component is what exposes it; tests use positive fluxes.", "anchors": ["src/utilities/MathUtilities.hh: norm, norm_residual, norm_relative_residual, vec_max, vec_min"]}
{"id": "C21", "title": "Scatter bounds enclose exactly the possible scatter sources", "statement": "After finalize, lower(g) and upper(g) are the smallest and largest groups that scatter into g in some material (with g itself included), and the transposed bounds are the same for scattering out of g.", "quantifier": "all materials, group counts, non-negative scatter matrices", "why_tests_cant": "Only a complete scan over all patterns settles the min/max logic.", "anchors": ["src/material/Material.cc: finalize, lower, upper"]}
{"id": "C22", "title": "Material finalisation depends only on the stored data", "statement": "Calling finalize again (also after changing scattering data) gives the same bounds, cutoffs and downscatter flag as a freshly built material with the same data.", "quantifier": "all histories of set calls and finalize calls", "why_tests_cant": "History dependence needs two-phase tests over all data.", "anchors": ["src/material/Material.cc: finalize, downscatter", "src/material/Material.hh"]}
{"id": "C23", "title": "In-scatter source is the full sum over other groups", "statement": "For non-negative scattering data the in-scatter source built from group bounds equals, in every cell, the sum over all groups other than g of flux times the scatter cross section into g (out of g for adjoint problems).", "quantifier": "all materials, fluxes, cells, groups, both modes", "why_tests_cant": "Truncated loops agree with the full sum only if bounds are right for every pattern.", "anchors": ["src/transport/ScatterSource.i.hh: build_in_scatter_source", "src/material/Material.cc: finalize"]}
{"id": "C24", "title": "Fixed-block plus Krylov-block scatter is the full scatter source", "statement": "For a group g in the Krylov block, the down-scatter source from the Gauss-Seidel block plus the block scatter source equals the total scatter into g, each source group counted exactly once.", "quantifier": "all materials, cutoffs and groups", "why_tests_cant": "The failing case needs a group whose lowest source lies above the cutoff.", "anchors": ["src/transport/ScatterSource.i.hh: build_downscatter_source, build_total_group_source", "src/solvers/mg/MGSolverGMRES.i.hh"]}
{"id": "C25", "title": "Fission source bookkeeping", "statement": "update() makes the fission density the group sum of nu-sigma-f times flux; the group sources from setup_outer sum over groups to scale times density when the spectrum sums to one; the forward and adjoint operators are transposes of each other.", "quantifier": "all fluxes, materials, scales", "why_tests_cant": "Identity over all inputs.", "anchors": ["src/transport/FissionSource.cc", "src/transport/FissionSource.i.hh"]}
{"id": "C26", "title": "Discretised sweep conserves particles", "statement": "In every cell the spatial equations satisfy absorption/collision plus net leakage equals source, so for a sweep of a whole row, plane or box, the outgoing boundary current minus the incoming boundary current plus total collisions equals the total source.", "quantifier": "all meshes, cross sections, sources, incident fluxes and directions; all mesh sizes", "why_tests_cant": "Conservation must survive an unbounded number of cells and heterogeneous data.", "anchors": ["src/transport/Equation_DD_1D.i.hh", "src/transport/Equation_DD_2D.i.hh", "src/transport/Equation_DD_3D.i.hh", "src/transport/Equation_SD_1D.i.hh", "src/transport/Sweeper1D.i.hh", "src/transport/Sweeper2D.i.hh", "src/transport/Sweeper3D.i.hh"]}
{"id": "C27", "title": "Step-difference sweeps preserve positivity and linearity", "statement": "With non-negative cross sections, sources and incident fluxes the step scheme gives non-negative fluxes everywhere, for any mesh; every scheme's sweep is linear in (source, incident flux); diamond difference can produce negative outgoing flux.", "quantifier": "all meshes and data", "why_tests_cant": "Needs all data and sizes; the negative-flux witness shows why the sign claim cannot be extended.", "anchors": ["src/transport/Equation_SD_1D.i.hh", "src/transport/Equation_SD_2D.i.hh", "src/transport/Equation_DD_1D.i.hh"]}
{"id": "C28", "title": "A sweep visits each cell once in upwind order", "statement": "For every octant the loop over cells visits each cell exactly once and each cell after its upwind neighbours, including wrap-around index arithmetic for descending directions.", "quantifier": "all mesh sizes, all octants", "why_tests_cant": "The loops use unsigned arithmetic that wraps; only sizes tried are tested.", "anchors": ["src/transport/Sweeper.cc: setup_spatial_indices", "src/transport/Sweeper1D.i.hh", "src/transport/Sweeper2D.i.hh", "src/transport/Sweeper3D.i.hh"]}
{"id": "C29", "title": "Octant ordering is a permutation with vacuum-most octants first", "statement": "The automatic octant order is a permutation of the octants and, when vacuum and reflective sides mix, sorted by decreasing number of incident vacuum sides.", "quantifier": "all boundary-condition combinations and dimensions", "why_tests_cant": "A hand-written exchange sort must be right for all count vectors.", "anchors": ["src/transport/Sweeper.cc: setup_octant_indices"]}
{"id": "C30", "title": "Reflection mirrors the outgoing flux", "statement": "After a reflective update on a side, the incident flux of each direction equals the outgoing flux of the direction with the normal component negated and the tangential components kept, so the net current through that side is zero.", "quantifier": "all sides, dimensions, angles, fluxes", "why_tests_cant": "Octant pair tables must match the sign tables for every side.", "anchors": ["src/boundary/Reflective.i.hh", "src/boundary/Reflective.hh", "src/angle/Quadrature.cc"]}
{"id": "C31", "title": "Periodic update carries outgoing flux to the opposite side", "statement": "After a periodic update on a side, the incident flux of each direction equals the outgoing flux of the same direction on the opposite side.", "quantifier": "all sides, dimensions, angles, fluxes", "why_tests_cant": "Table consistency for all dimensions.", "anchors": ["src/boundary/Periodic.i.hh"]}
{"id": "C32", "title": "Boundary flux vector get/set round-trips", "statement": "Writing a vector into the boundary fluxes with SET and reading with GET for the same group and direction returns the same vector, touches only the selected directions, and reading after writing consumes exactly the advertised size.", "quantifier": "all meshes, quadratures, side selections, vectors", "why_tests_cant": "Offset arithmetic through nested loops over all sizes.", "anchors": ["src/boundary/BoundarySN.i.hh: psi"]}
{"id": "C33", "title": "Incident and outgoing octant tables agree with direction signs", "statement": "On each side the incident octants are exactly those whose direction cosine points into the domain and the outgoing octants exactly the others, in every dimension.", "quantifier": "all dimensions, sides, octants", "why_tests_cant": "Finite tables but used by every sweep; tests spot check entries.", "anchors": ["src/angle/Quadrature.cc: Quadrature::Quadrature, set_adjoint", "src/angle/Quadrature.i.hh"]}
{"id": "C34", "title": "Adjoint quadrature reverses every direction", "statement": "Switching to adjoint mode negates every direction cosine, switching back restores them, and repeating a switch has no further effect.", "quantifier": "all call sequences, all angles", "why_tests_cant": "History of toggles is unbounded.", "anchors": ["src/angle/Quadrature.cc: set_adjoint"]}
{"id": "C35", "title": "Moment numbering is a bijection with the documented counts", "statement": "For legendre order L the moments are numbered 0..n-1 with n = L+1 in 1-D, (L+1)(L+2)/2 in 2-D and (L+1)^2 in 3-D; l(i), m(i) recover the pair and index(l,m) inverts them; m range per l is as documented.", "quantifier": "all orders and dimensions", "why_tests_cant": "All orders L.", "anchors": ["src/angle/MomentIndexer.cc", "src/angle/MomentIndexer.hh"]}
{"id": "C36", "title": "Angle numbering is a bijection", "statement": "The cardinal angle index built from octant and angle-in-octant, and the product-quadrature index built from azimuth and polar indices, are bijections onto their ranges with the documented inverses.", "quantifier": "all quadrature sizes", "why_tests_cant": "All sizes.", "anchors": ["src/angle/Quadrature.i.hh: index", "src/angle/ProductQuadrature.cc: angle, azimuth, polar"]}
{"id": "C37", "title": "Pin, assembly and core meshes tile their components", "statement": "The combined material map of an assembly (core) restricted to the position of each pin (assembly) is that component's own map, and the mesh edges are the components' edges shifted by their positions.", "quantifier": "all assembly sizes, pin maps, pin meshes", "why_tests_cant": "Index arithmetic over arbitrary sizes.", "anchors": ["src/geometry/Assembly.cc: finalize", "src/geometry/Core.cc: finalize", "src/geometry/PinCell.cc"]}
{"id": "C38", "title": "Constructive solid geometry is set algebra", "statement": "contains() of union, intersection and difference nodes are the Boolean combinations of their operands, translation shifts the set, and hence contains() of any tree is the set denoted by the tree.", "quantifier": "all trees, all points", "why_tests_cant": "Trees are unbounded.", "anchors": ["src/geometry/CSG.cc"]}
{"id": "C39", "title": "Ray-surface intersections lie on the surface in travel order", "statement": "Every point returned for a ray lies on the surface, at positive distance not beyond the limit, in increasing distance along the ray; every transversal crossing within range is returned.", "quantifier": "all quadratic surfaces, rays, limits", "why_tests_cant": "Continuum of rays and surfaces.", "anchors": ["src/geometry/QuadraticSurface.cc: intersections", "src/geometry/CSG.cc"]}
{"id": "C40", "title": "Track reversal and normalisation", "statement": "Reversing a track twice gives back the same traversal order, and normalising a track database makes the tracked volume of each region equal its true volume.", "quantifier": "all tracks and databases", "why_tests_cant": "Aliasing between a track and its reverse only shows in particular histories.", "anchors": ["src/geometry/Track.cc: reverse", "src/geometry/TrackDB.cc: normalize"]}
{"id": "C41", "title": "Coarse mesh is a conservative partition of the fine mesh", "statement": "For every fine mesh and coarsening level the coarse cells partition the fine cells into contiguous groups of at least `level` cells, coarse edges coincide with fine edges, the fine-to-coarse map is monotone and onto, and total widths agree.", "quantifier": "all fine mesh sizes and levels", "why_tests_cant": "Remainder distribution goes wrong only for particular sizes (out-of-range write).", "anchors": ["src/transport/CoarseMesh.cc"]}
{"id": "C42", "title": "Current-tally storage indices never collide", "statement": "For each axis the surface index maps distinct surfaces to distinct in-range slots, and every tally call made by a sweep uses an in-range index.", "quantifier": "all mesh sizes", "why_tests_cant": "Collision depends on sizes in three directions; one-cell meshes are the corner case.", "anchors": ["src/transport/BoundaryTally.hh: index", "src/transport/CurrentTally.i.hh"]}
{"id": "C43", "title": "Scaling and clearing a state acts on the whole state", "statement": "scale(f) multiplies every stored flux moment by f and clear() makes every stored moment zero, for any moment order.", "quantifier": "all states, moment orders and factors", "why_tests_cant": "Tests use zeroth-order moments.", "anchors": ["src/transport/State.cc: clear, scale"]}
{"id": "C44", "title": "Homogenisation preserves reaction rates", "statement": "For every coarse region and group, coarse cross section times coarse flux-volume equals the sum of fine cross section times fine flux-volume, for total, fission and group-to-group scatter; the homogenised spectrum is the fission-weighted average and sums to one.", "quantifier": "all fine materials, maps, fluxes, group structures", "why_tests_cant": "Identity over arbitrary maps; weighting error shows only with several groups.", "anchors": ["src/transport/Homogenize.cc"]}
{"id": "C45", "title": "Tabulated materials and sources interpolate linearly in time", "statement": "The time-dependent material equals the tabulated one at each tabulated time, is clamped outside the table, and between two consecutive times is their convex combination, so it never leaves the range of the two and is continuous in time.", "quantifier": "all tables, all times", "why_tests_cant": "Continuum of times and interval boundaries.", "anchors": ["src/kinetics/LinearMaterial.cc: update_impl", "src/kinetics/LinearExternalSource.i.hh: set_time"]}
{"id": "C46", "title": "BDF coefficients differentiate polynomials exactly", "statement": "For each order n=1..6 the tabulated backward-difference coefficients give the exact derivative of every polynomial of degree at most n on a uniform time grid, and not of all polynomials of degree n+1.", "quantifier": "all polynomials of degree <= n, all times and step sizes", "why_tests_cant": "Infinite family of polynomials.", "anchors": ["src/kinetics/BDFCoefficients.hh: bdf_coefs"]}
{"id": "C47", "title": "Precursor update is the implicit step and keeps equilibrium", "statement": "The new precursor concentration satisfies the implicit backward-difference balance (a0 C - sum a_j C_j)/dt = beta F - lambda C; equilibrium concentrations with constant fission rate are unchanged; non-negative data give non-negative results for order one.", "quantifier": "all histories, decay constants, steps", "why_tests_cant": "All values.", "anchors": ["src/solvers/time/TimeStepper.cc: update_precursors, initialize_precursors"]}
{"id": "C48", "title": "Time stepper keeps the right history", "statement": "After any number of steps, slot j of the stored history holds the solution of j steps earlier (for j up to the number of steps taken and the order), distinct slots never alias, and the order used at step i is min(i, order).", "quantifier": "all step counts and orders", "why_tests_cant": "Pointer rotation invariants over unbounded histories.", "anchors": ["src/solvers/time/TimeStepper.cc: cycle_states_precursors, solve"]}
{"id": "C49", "title": "Basis expansion round-trips", "statement": "For a complete orthogonal basis, inverse(transform(f)) = f; for a truncated one the transform of the reconstruction returns the same coefficients (projection).", "quantifier": "all vectors, sizes, orthogonal bases", "why_tests_cant": "All vectors and bases.", "anchors": ["src/orthog/OrthogonalBasis.cc", "src/orthog/OrthogonalBasis.i.hh"]}
{"id": "C50", "title": "Diffusion loss operator is conservative and symmetric per group", "statement": "For each group the volume-weighted loss matrix is symmetric in space, its off-diagonal entries are non-positive, and summing the balance over all cells leaves only boundary leakage and removal; reflective sides leak nothing.", "quantifier": "all meshes, materials, dimensions, fluxes", "why_tests_cant": "Global telescoping over arbitrary meshes.", "anchors": ["src/solvers/mg/DiffusionLossOperator.cc: build"]}
{"id": "C51", "title": "Diffusion gain operator adjoint is the transpose", "statement": "The adjoint gain matrix is the transpose of the forward one, every row is written within preallocated space, and applying it gives chi times the fission rate.", "quantifier": "all materials and meshes", "why_tests_cant": "All data.", "anchors": ["src/solvers/mg/DiffusionGainOperator.cc: build"]}
{"id": "C52", "title": "CMFD operator reproduces transport balance", "statement": "Applied to the flux and currents it was built from (no relaxation), the coarse-mesh operator's row equals net leakage from the tallied currents plus removal minus in-scatter, so a converged transport solution satisfies the coarse balance exactly.", "quantifier": "all fluxes (nonzero), currents, meshes", "why_tests_cant": "All tallies.", "anchors": ["src/solvers/mg/CMFDLossOperator.cc: build"]}
{"id": "C53", "title": "Restriction after prolongation is the identity", "statement": "For the coarse-mesh preconditioner, restricting a prolonged coarse vector returns it, and restriction of a spatially flat flux is its group sum; building the restriction never drops an entry.", "quantifier": "all meshes, levels, group maps, spectra", "why_tests_cant": "Preallocation estimate fails only for certain 2-D/3-D shapes.", "anchors": ["src/solvers/mg/MGCoarseMeshPreconditioner.cc: build_restrict, build_prolong, shape"]}
{"id": "C54", "title": "Text mesh input is accepted exactly when consistent", "statement": "A mesh description with matching edge and count lengths in every direction is accepted and builds the mesh it describes, in 1-D, 2-D and 3-D, coarse or fine; inconsistent ones are rejected.", "quantifier": "all mesh descriptions", "why_tests_cant": "Copy-paste conditions are only exercised by non-square shapes.", "anchors": ["src/drivers/StupidParser.cc: parse_mesh_text"]}
{"id": "C55", "title": "Edited region quantities are normalised", "statement": "region_power sums to the requested scale whenever total power is nonzero; edit sums each region and, in mean mode, divides each region's sum by the region's volume.", "quantifier": "all maps, fluxes and materials", "why_tests_cant": "Index confusion is hidden when map is the identity.", "anchors": ["src/postprocess/ReactionRates.cc: region_power, edit"]}
{"id": "C56", "title": "Power iteration eigenvalue bookkeeping", "statement": "At each power iteration the eigenvalue estimate is the ratio of successive fission-density norms times the previous estimate; an exact eigenpair is reproduced and terminates the loop; the reported value is the last estimate.", "quantifier": "all operators, starting densities, iteration limits", "why_tests_cant": "All operators.", "anchors": ["src/solvers/eigen/EigenPI.i.hh: solve"]}
{"id": "C57", "title": "Group blocks cover every group exactly once", "statement": "The Gauss-Seidel block and the Krylov block together visit every energy group exactly once for every admissible cutoff, in forward and adjoint mode, and the Krylov-vector offset of each active group is distinct and in range.", "quantifier": "all group counts and cutoffs, both modes", "why_tests_cant": "Signed/unsigned range arithmetic at the ends.", "anchors": ["src/solvers/mg/MGSolverGMRES.cc", "src/solvers/mg/MGTransportOperator.cc", "src/solvers/mg/MGScatterFissionOperator.cc"]}
{"id": "C58", "title": "Region membership respects its bounding box", "statement": "A region with a bounding box contains a point exactly when its defining node contains it and the point lies in the box.", "quantifier": "all nodes, boxes, points", "why_tests_cant": "All points.", "anchors": ["src/geometry/Region.cc: contains, intersects_bounding_box"]}
{"id": "C59", "title": "Synthetic source formulation equals the coupled kinetics step", "statement": "Solving the static-like problem with the synthetic material and sources and then updating precursors satisfies the coupled implicit time-discretised transport and precursor equations.", "quantifier": "all data, orders, steps", "why_tests_cant": "Elimination identity for all inputs.", "anchors": ["src/kinetics/TimeDependentMaterial.cc: update", "src/kinetics/SyntheticMomentSource.i.hh: build", "src/solvers/time/TimeStepper.cc: update_precursors"]}
{"id": "C60", "title": "Vector utilities", "statement": "linspace(a,b,n) returns n equally spaced points starting at a and ending at b; vec_unique returns exactly the distinct values; the reversible iteration helper visits all elements once in the stated direction.", "quantifier": "all inputs", "why_tests_cant": "All lengths.", "anchors": ["src/utilities/MathUtilities.hh: linspace, vec_unique", "src/utilities/Iterators.hh"]}
{"id": "C61", "title": "A meshed pin cell represents the pin", "statement": "Meshing a pin cell uniformly gives n equal steps from zero to the pitch and assigns every fine cell the region and material of its centre; the best-fit meshing has edges ending at the pitch, conserves the fuel area, and has exactly the requested number of fine cells, all counts positive.", "quantifier": "all pitches, radii, numbers of fine cells", "why_tests_cant": "Cell counts come from floors of products of radius, pitch and mesh number; failures appear only for particular ratios.", "anchors": ["src/geometry/PinCell.cc: PinCell::meshify, find_region"]}
{"id": "C62", "title": "Material accessors return what was last stored", "statement": "After any history of setter calls each cross-section accessor returns the value of the last write to that slot (or the documented default), and other slots are untouched; finalize makes nu*fission equal to nu times fission; the absorption and diffusion-coefficient helpers set exactly total minus the scattering out of the group, and 1/(3*total), as stored at the moment of the call and whatever was stored before; a vector stored with one entry per group is read back.", "quantifier": "all histories of setters (single and vectorised), helpers, finalize and set_downscatter, all groups and materials", "why_tests_cant": "Quantifies over unbounded interleavings of setters; tests write each slot once.", "anchors": ["src/material/Material.cc: setters, finalize, compute_sigma_a, compute_diff_coef"]}
{"id": "C63", "title": "Sweeps preserve flat solutions", "statement": "If every incident boundary angular flux equals a constant and every cell's source equals its total cross section times that constant, a sweep of any spatial scheme in any dimension leaves every cell and boundary angular flux equal to the constant and every scalar flux equal to the constant times the total quadrature weight, whatever the mesh and materials.", "quantifier": "all meshes, material maps, quadratures, octant orders, schemes, constants", "why_tests_cant": "Ranges over all mesh sizes, widths and cross sections; a test shows one mesh.", "anchors": ["src/transport/Equation_DD_1D.i.hh", "src/transport/Equation_SC_2D.i.hh", "src/transport/Equation_DD_3D.i.hh", "src/transport/Sweeper1D.cc: sweep", "src/transport/Sweeper2D.cc: sweep", "src/transport/Sweeper3D.cc: sweep"]}
{"id": "C64", "title": "Product-quadrature side slots", "statement": "On every side of a 2-D or 3-D box the azimuth/polar index tables of a product quadrature hold every incident (outgoing) direction of that side exactly once; azimuth indices on a vertical side run strictly from right to left seen along the direction of travel, on a horizontal side counterclockwise, and polar indices in 3-D run strictly downward.", "quantifier": "all numbers of azimuths and polar angles, sides, dimensions, all increasing angle sets", "why_tests_cant": "Index arithmetic for all sizes on six sides; a test covers one quadrature size.", "anchors": ["src/angle/ProductQuadrature.cc: ProductQuadrature, incident_index, outgoing_index"]}
{"id": "C65", "title": "Quadrature sets integrate over their domain", "statement": "A product quadrature built from azimuth weights summing to a quarter turn and polar weights summing to one has weights over all octants summing to the full sphere, unit directions and the documented layout; the verification accepts exactly ordered positive sets; uniform and Simpson base sets and doubled sets have weights summing to the interval length, with points where documented and the documented polynomial exactness.", "quantifier": "all sizes, intervals, weights and points", "why_tests_cant": "All sizes including residues modulo three; tests use a few sizes.", "anchors": ["src/angle/ProductQuadrature.cc: build, verify", "src/angle/BaseUniform.hh: BaseUniform, BaseSimpson", "src/angle/BaseGL.hh: BaseDGL", "src/angle/BaseQuadrature.hh: scale_and_shift", "src/utilities/MathUtilities.hh: linspace_center"]}
{"id": "C66", "title": "Spherical harmonics and the moment-to-discrete operator", "statement": "The real spherical harmonics up to degree three satisfy the addition theorem and the parity rules, reduce to Legendre polynomials along the polar axis, and expanding moments to discrete directions followed by quadrature integration returns the moments whenever the quadrature integrates the products of harmonics exactly.", "quantifier": "all unit directions, degrees, orders, quadratures meeting the hypothesis", "why_tests_cant": "Identities over all directions; tests check a few points.", "anchors": ["src/angle/SphericalHarmonics.cc: get_Y_lm", "src/angle/MomentToDiscrete.i.hh: calc_row"]}
{"id": "C67", "title": "Fixed boundary sources and boundary-condition names", "statement": "Setting the boundary for a group copies the stored flux of each entering octant and angle of every fixed side into the container and changes nothing else; boundary updates made during sweeps never change those fluxes unless the opposite side is periodic. A side without an input entry is vacuum; exactly the names vacuum, reflect, fixed and periodic are accepted, and a side is flagged reflective exactly for the name reflect.", "quantifier": "all dimensions, sides, stored fluxes, mixes of boundary conditions, containers and names", "why_tests_cant": "Mixes of conditions on six sides and all octants; a test sets one side.", "anchors": ["src/boundary/FixedBoundary.i.hh: set", "src/boundary/BoundaryFactory.t.hh: build", "src/boundary/BoundarySN.cc: BoundarySN", "src/boundary/BoundarySN.i.hh: set, update"]}
{"id": "C68", "title": "Ray tracing segments cover a region exactly", "statement": "The segments a track receives are pieces between consecutive surface intersections that lie inside the region they are tagged with, every stretch of the track inside a region is covered by one, and they come in order from the entrance; segmentation never reads outside the list of intersection points.", "quantifier": "all constructive geometries and tracks", "why_tests_cant": "Continuum of rays; trees of any size; empty intersection lists occur only for particular rays.", "anchors": ["src/geometry/Tracker.cc: segmentize", "src/geometry/CSG.cc: intersections"]}
{"id": "C69", "title": "Pin-cell regions partition the cell", "statement": "The regions created for a pin cell (annuli times divisions) contain every point of the cell exactly once, with the material of its annulus, for every number of radii, every division scheme and every pin offset.", "quantifier": "all pin cells, all points", "why_tests_cant": "Every point, including those on the dividing planes.", "anchors": ["src/geometry/RegionFactory.cc: CreatePinCell"]}
{"id": "C70", "title": "A geometry built from a mesh locates points in mesh cells", "statement": "For a geometry created from a two- or three-dimensional mesh, find() returns the cell number of the mesh cell containing the point, that region carries the cell's material, and points outside are reported as such.", "quantifier": "all meshes, all points", "why_tests_cant": "All meshes and points.", "anchors": ["src/geometry/Geometry.cc: Geometry(mesh), find, material_index"]}
{"id": "C71", "title": "Translated regions and assemblies", "statement": "A translated region contains exactly the translated points, and its bounding-box test accepts exactly the translated rays; assembly regions are the pin regions at multiples of the pitch.", "quantifier": "all regions, offsets, rays, assemblies", "why_tests_cant": "All offsets.", "anchors": ["src/geometry/RegionFactory.cc: CreateTranslatedRegion, CreateAssembly", "src/geometry/Region.cc: intersects_bounding_box"]}
{"id": "C72", "title": "The stepper covers the requested time with the fewest steps", "statement": "The number of steps is the least n with n*dt >= final time, or the user's limit if smaller; step i evaluates materials and sources at i*dt, or half a step earlier exactly when a half step is extrapolated (always for the midpoint scheme; only in the first step of a higher-order scheme, unless switched off).", "quantifier": "all final times, step sizes, limits, schemes and steps", "why_tests_cant": "tests run one or two step counts; ceil, the limit and the flag logic interact over all schemes and steps", "anchors": ["src/solvers/time/TimeStepper.cc: TimeStepper, solve, step"]}
{"id": "C73", "title": "Half step plus extrapolation is the midpoint rule", "statement": "A first-order half step followed by extrapolation satisfies the implicit midpoint equation for precursors and any other extrapolated quantity, and the scalar flux rebuilt from extrapolated angular fluxes is the extrapolated scalar flux.", "quantifier": "all data, step sizes and angular sets", "why_tests_cant": "an algebraic identity over all data; a test sees one transient", "anchors": ["src/solvers/time/TimeStepper.cc: extrapolate, step, update_precursors"]}
{"id": "C74", "title": "Physics variables take the implicit backward-difference step", "statement": "The updated variable satisfies (a0 y - sum a_k y_k)/dt = right-hand side given by the user, for every order; a steady variable with no driving term is unchanged.", "quantifier": "all histories, orders and steps", "why_tests_cant": "an identity for all histories and orders", "anchors": ["src/solvers/time/TimeStepper.cc: update_multiphysics"]}
{"id": "C75", "title": "Material updates do not accumulate", "statement": "Updating a time-dependent material gives the same result whatever updates were made before: repeated synthetic updates do not add up and an ordinary update removes the synthetic parts.", "quantifier": "all sequences of updates with any times, orders and flags", "why_tests_cant": "depends on the order of all earlier updates", "anchors": ["src/kinetics/TimeDependentMaterial.cc: update", "src/kinetics/LinearMaterial.cc: update_impl", "src/kinetics/TimeIndependentMaterial.cc: update_impl"]}
{"id": "C76", "title": "A pulsed source is a Gaussian with the width requested", "statement": "The factor is positive, at most one, one exactly at the peak time, symmetric about it, decreasing away from it, and one half (to nine digits) half a width from the peak.", "quantifier": "all times, peaks and nonzero widths", "why_tests_cant": "real exponential over all times", "anchors": ["src/kinetics/PulsedExternalSource.i.hh: set_time, source"]}
{"id": "C77", "title": "Discrete and moment synthetic sources agree", "statement": "When the stored scalar fluxes are the integrals of the stored angular fluxes and the quadrature weights are normalised, the angular integral of the discrete synthetic source is the moment synthetic source.", "quantifier": "all materials, histories, orders, quadratures", "why_tests_cant": "an identity between two classes never tested against each other for all data", "anchors": ["src/kinetics/SyntheticDiscreteSource.i.hh: build, source", "src/kinetics/SyntheticMomentSource.i.hh: build"]}
{"id": "C78", "title": "Iterations within a step stop at convergence or the limit, and the residual is reported", "statement": "Each step makes between one and the allowed number of iterations, keeps the last iterate, stops early only when the last two iterates agree to the tolerance; residual_norm() returns the last residual computed.", "quantifier": "all iteration maps, tolerances, limits", "why_tests_cant": "quantifies over all iterations", "anchors": ["src/solvers/time/TimeStepper.cc: solve, check_convergence", "src/solvers/time/TimeStepper.hh: residual_norm"]}
{"id": "C79", "title": "The discrete Legendre basis is orthogonal for every size", "statement": "The columns built by the recurrence are mutually orthogonal, start at one, are even or odd about the middle, and none vanishes, for every vector size and every order below it; so transform and inverse built on them satisfy C49.", "quantifier": "all sizes, orders below the size, both normalisation options", "why_tests_cant": "orthogonality of an inductively defined family for every size", "anchors": ["src/orthog/DLP.cc: DLP", "src/orthog/OrthogonalBasis.cc: compute_a"]}
{"id": "C80", "title": "The discrete Chebyshev basis is orthogonal with equal norms", "statement": "The columns built row by row and mirrored are mutually orthogonal and every squared norm equals the vector size, for every size and order below it.", "quantifier": "all sizes, orders below the size", "why_tests_cant": "the row recurrence, the mirror and the starting values must fit together for every size", "anchors": ["src/orthog/DCP.cc: DCP"]}
{"id": "C81", "title": "The cosine basis is orthogonal for every size", "statement": "The cosine columns are mutually orthogonal with squared norm N for order zero and N/2 otherwise.", "quantifier": "all sizes, orders below the size", "why_tests_cant": "a trigonometric identity for every size", "anchors": ["src/orthog/DCT.cc: DCT"]}
{"id": "C82", "title": "Transformed bases are orthonormal and keep the span", "statement": "Starting from a user function, the transformed columns are orthonormal in the product that transform uses, the zeroth is proportional to the given function times the original zeroth column, and the original columns are combinations of the new ones.", "quantifier": "all starting functions, original bases, sizes, orders, both options", "why_tests_cant": "Gram-Schmidt for arbitrary data", "anchors": ["src/orthog/TransformedBasis.cc: TransformedBasis"]}
{"id": "C83", "title": "Continuous Legendre and Jacobi bases are orthogonal and normalised under exact quadrature", "statement": "On any interval, given a quadrature exact for the products involved, the columns are orthogonal and the coefficients normalise them, so transform and inverse satisfy C49.", "quantifier": "all intervals, exact quadratures, sizes and orders", "why_tests_cant": "quantifies over all quadratures and intervals", "anchors": ["src/orthog/CLP.cc: CLP, LP", "src/orthog/Jacobi01.cc: Jacobi01, jacobi_coefs"]}
{"id": "C84", "title": "The Chebyshev basis evaluates Chebyshev polynomials of the second kind", "statement": "Every column is the polynomial of the second kind of its degree at every point.", "quantifier": "all points, all degrees", "why_tests_cant": "all degrees and points", "anchors": ["src/orthog/ChebyshevU.cc: ChebyshevU, cheby_u"]}
{"id": "C85", "title": "Multigroup solves satisfy the multigroup equation", "statement": "When the inner solves are exact, the flux returned by a multigroup fixed-source solve satisfies, in every group, the transport equation whose source contains the external source, scattering from all groups and (for multiplying problems) fission from all groups, each once. This holds for the Krylov solver for every admissible group cutoff and for Gauss-Seidel once another pass would change nothing, in forward and adjoint mode, and does not depend on the flux the solve started from.", "quantifier": "all group counts, cutoffs, materials, material maps, additive sweep operators, external sources, initial fluxes, forward and adjoint", "why_tests_cant": "tests use a handful of cross-section sets with the default cutoff and zero initial flux; the double counting only appears for sparsity patterns where a Krylov group has no source below the cutoff and for non-zero initial fluxes", "anchors": ["src/solvers/mg/MGSolverGMRES.i.hh:MGSolverGMRES::solve", "src/solvers/mg/MGSolverGS.i.hh:MGSolverGS::solve", "src/solvers/mg/MGTransportOperator.cc:multiply", "src/transport/SweepSource.i.hh"]}
{"id": "C86", "title": "Within-group solves count every source once", "statement": "Source iteration stops changing exactly at fluxes that satisfy the group's transport equation. The Krylov within-group solver solves a linear system whose solution satisfies the same equation: external moment sources, discrete external sources, boundary sources, in-scatter and within-group scatter each enter once.", "quantifier": "all sweep operators, groups, external moment and discrete sources, boundary sources, states", "why_tests_cant": "tests compare both solvers on isotropic sources only; the discrete-source flag left on inside the operator needs a discrete source and a Krylov within-group solver together", "anchors": ["src/solvers/wg/WGSolverSI.i.hh:WGSolverSI::solve", "src/solvers/wg/WGSolverGMRES.i.hh:WGSolverGMRES::solve", "src/solvers/wg/WGTransportOperator.cc:multiply", "src/transport/SweepSource.hh: set_discrete_external_source_flag"]}
{"id": "C87", "title": "Text input lines become database entries however they are spaced", "statement": "A line `type key values` of the text input makes exactly the entry it stands for, with any positive number of blanks between the words and any number at the end. Comments, indented lines and lines of other kinds make no entry. For each key and type the last line counts.", "quantifier": "all texts, keys, values and spacings", "why_tests_cant": "infinitely many spacings and orders of lines; tests use one file", "anchors": ["src/drivers/StupidParser.hh: parse_input_text, remove_white_space, read_scalar, read_vector"]}
{"id": "C88", "title": "Material lines of the text input set the quantities they name", "statement": "In an accepted text the last line about a quantity of a material (total, absorption, fission, nu, production, chi, diffusion coefficient, scattering into a group) determines that row; a row with the wrong number of values is rejected; what no line mentions keeps its default; other lines have no effect.", "quantifier": "all texts, materials, groups, spacings", "why_tests_cant": "all interleavings of lines and repeated lines", "anchors": ["src/drivers/StupidParser.hh: parse_material_text", "src/material/Material.cc: set_sigma_t, set_sigma_s, finalize"]}
{"id": "C89", "title": "Level-symmetric sets integrate the sphere evenly", "statement": "A level-symmetric set exists for one to twelve levels per octant and for nothing else. It has n(n+1)/2 directions per octant, all real unit vectors; permuting the axes maps the set to itself with the same weights; all even powers of a direction cosine up to the order have their exact mean over the sphere; the weights over all octants come to 4 pi in two and three dimensions; the weights are positive.", "quantifier": "all level counts, directions, moments up to the order, two and three dimensions", "why_tests_cant": "a test checks the weight sum of one order; a transposed weight index or a mistyped digit in a higher-order table keeps the sum", "anchors": ["src/angle/LevelSymmetric.cc: LevelSymmetric, set_quad_values"]}
{"id": "C90", "title": "Gauss-Legendre sets integrate polynomials exactly", "statement": "The m-point set on an interval has m points inside it in increasing order, positive weights, and is antisymmetric. Its points are the m roots of the Legendre polynomial of degree m to within a quarter of the tolerance 1e-15 of the root search, whose weights it has with a relative error of at most (2m+1)^2 times that tolerance; so it integrates every polynomial p of degree up to 2m-1 with an error of at most 1e-15 times the length times ((2m+1)^2 max|p| + length max|p'|), and exactly if the search is started at the roots. The double set does the same on each half; the polar sets integrate over (0,1), those of the plain rule even polynomials up to degree 4n-1.", "quantifier": "all sizes, intervals and polynomials, exact arithmetic", "why_tests_cant": "tests compare a few tabulated points; exactness is a statement about all polynomials, and that the search finds every root once about all sizes", "anchors": ["src/angle/BaseGL.hh: BaseGL, generate_gl_parameters", "src/angle/BaseGL.hh: BaseDGL", "src/angle/PolarQuadrature.t.hh"]}
{"id": "C91", "title": "Gauss-Chebyshev sets integrate over their interval", "statement": "The m-point set reproduces every integral against the Chebyshev weight up to degree 2m-1; its weights come to the length of the interval; normalised sets come to the requested total.", "quantifier": "all sizes and intervals", "why_tests_cant": "tests compare a few points and never sum the weights", "anchors": ["src/angle/BaseGC.hh", "src/angle/PolarQuadrature.t.hh", "src/angle/AzimuthalQuadrature.t.hh"]}
{"id": "C92", "title": "The equal-weight set covers the sphere evenly", "statement": "The set has order^2 unit directions per octant with the documented cosines and azimuths; the weights over all octants come to 4 pi and the first polar moment over one half space is exact.", "quantifier": "all orders and dimensions", "why_tests_cant": "all orders", "anchors": ["src/angle/UniformEqual.cc: UniformEqual"]}
{"id": "C93", "title": "Tabulated polar and azimuthal sets integrate what they are built for", "statement": "Double-range sets with N polar angles integrate the first 2N powers of the polar sine over a half space, quadruple-range sets with N azimuths the first N powers of the cosine over the quadrant; Tabuchi-Yamamoto and trigonometric Gauss sets have half-range weights that come to one; points lie strictly inside their range, are ordered, mirror each other, and the weights are positive. Unsupported sizes are rejected.", "quantifier": "all supported sizes (everything else is rejected), all powers in range", "why_tests_cant": "there are hundreds of table entries; tests look at one size of each", "anchors": ["src/angle/AbuShumaysDoubleRange.cc: build_impl, get_theta", "src/angle/AbuShumaysQuadrupleRange.cc: build_impl, get_phi", "src/angle/TabuchiYamamoto.cc: build_impl", "src/angle/TriGauss.hh: build_impl", "src/angle/PolarQuadrature.t.hh"]}
{"id": "C94", "title": "The input's quadrature name gives the set it names", "statement": "A pair of names gives the product of these two sets in the requested sizes, normalised when the input asks for it; one-dimensional names give the polar set; without a name the default set is built; user sets keep the given cosines and weights; every other name is rejected.", "quantifier": "all inputs and dimensions", "why_tests_cant": "tests build a few names; a copy-paste error in one branch of a thirty-branch chain goes unseen", "anchors": ["src/angle/QuadratureFactory.cc: QuadratureFactory::build", "src/angle/UserQuadrature.hh: UserQuadrature"]}
{"id": "C95", "title": "GMRES minimises the residual and tells the truth about it", "statement": "For every nonsingular linear system (matrix and preconditioner nonsingular, either side), right-hand side, guess, restart and iteration limit: each cycle returns the point of guess + Krylov space with the smallest (left-preconditioned) residual; the recorded norms are the true norms of the iterates and never increase, so divergence is never reported; success means the returned vector meets the tolerance; no division by zero occurs; with restart >= n (and at least 3, as the constructor asks) and limit >= n+2 the solve succeeds within n inner iterations.", "quantifier": "all inner-product spaces, regular systems, guesses, restarts, limits, tolerances and previous solver contents", "why_tests_cant": "tests solve two or three small systems; optimality compares with every other vector of the Krylov space, and the residual estimate is never compared with the true residual", "anchors": ["src/callow/solver/GMRES.cc: GMRES::solve_impl", "src/callow/solver/GMRES.i.hh: apply_givens, compute_y", "src/callow/solver/LinearSolver.cc: solve, monitor, monitor_init"]}
{"id": "C96", "title": "GMRES honours its limit, its database and an exact guess", "statement": "A solve that stops at the iteration limit reports it and has used the iterations allowed; an exact guess is recognised; the preconditioner named in the database is applied on the side named there.", "quantifier": "all regular systems, limits and databases", "why_tests_cant": "tests use limits that are never reached and set the preconditioner through the other interface", "anchors": ["src/callow/solver/GMRES.cc: GMRES::solve_impl", "src/callow/solver/LinearSolver.cc: set_operators"]}
{"id": "C97", "title": "The characteristics equation integrates the transport equation along a segment", "statement": "For a homogeneous segment with constant source, the flux leaving it and its mean are those of the exact solution of the one-dimensional transport equation; cutting a segment in two changes nothing, a flat solution stays flat, and summed along a track what enters plus what is born equals what leaves plus what is absorbed; a sweep of the method of characteristics adds these contributions for every track.", "quantifier": "all cross sections, lengths, sources, incident fluxes, all tracks of any number of segments and all directions", "why_tests_cant": "tests check one segment against one number, and no test runs a sweep", "anchors": ["src/transport/Equation_SC_MOC.i.hh: solve", "src/transport/Equation_SC_MOC.cc: setup_azimuth, setup_polar", "src/transport/Sweeper2DMOC.cc"]}
{"id": "C98", "title": "Power iteration returns what it says", "statement": "The vectors are the normalised powers of the operator applied to the guess and the eigenvalue is their growth; success means an eigenpair up to the tolerance and is reported at the first iteration that meets it; started near a dominant positive eigenvalue it converges to it for every tolerance; a guess that is an eigenvector is recognised; the limit given last is honoured and the operators given last are used.", "quantifier": "all operators, norms, guesses, tolerances and limits, standard and generalised problems with exact inner solves", "why_tests_cant": "tests run one matrix with a positive spectrum at one tolerance and never change the limit or reuse a solver", "anchors": ["src/callow/solver/PowerIteration.i.hh: solve_impl", "src/callow/solver/EigenSolver.cc: solve, monitor, set_operators, set_preconditioner", "src/callow/solver/EigenSolver.hh: set_tolerances"]}
{"id": "C99", "title": "Davidson and Eispack return the pair they report", "statement": "The vector returned is normalised, the recorded residual is that of the returned pair, success is reported exactly when it is below the tolerance; for a standard symmetric problem the eigenvalue is the Rayleigh quotient of the vector and never below that of the guess; the dense solver returns the eigenpair with the largest (or smallest) real part.", "quantifier": "all linear operators, inner products, preconditioners, guesses, subspace sizes, limits and tolerances", "why_tests_cant": "tests run one preconditioner on one matrix far from the limit and matrices with real spectra", "anchors": ["src/callow/solver/Davidson.cc: solve_impl, set_operators", "src/callow/solver/Eispack.cc: solve_impl", "src/callow/solver/EigenSolver.cc: monitor"]}
{"id": "C100", "title": "Solvers are built as the database says", "statement": "The linear and eigenvalue solver built is the one named, with the parameters of the entries documented for it and the stated defaults where an entry is absent; an unknown name is an error.", "quantifier": "all databases, with any subset of the entries present", "why_tests_cant": "tests build each solver from one database with all entries", "anchors": ["src/callow/solver/LinearSolverCreator.cc: Create", "src/callow/solver/EigenSolverCreator.cc: Create"]}
{"id": "C101", "title": "The diffusion solver conserves particles and fills state and boundary consistently", "statement": "After a fixed-source diffusion solve the flux of the state is the solution of the linear system; in every cell and over the whole domain what is given (external, fission and incident sources) equals what is removed plus the net outflow, the outflow being the difference of the partial currents stored for the boundary and those given; a solve at another multiplication factor uses the operator of that factor over the same groups; the stored cell current is the mean of the currents through the faces.", "quantifier": "all meshes of one to three dimensions, materials, sources, incident currents, albedos, forward and adjoint", "why_tests_cant": "tests compare one flux value, never the boundary currents, and never change the factor in adjoint mode", "anchors": ["src/solvers/mg/MGDiffusionSolver.cc: build_volume_source, build_boundary_source, fill_state, fill_boundary, fill_current, refresh, solve"]}
{"id": "C102", "title": "Every source given contributes once to the transport sweep", "statement": "An isotropic source divided over the directions integrates to its density and is the same in every direction; a discrete source is used as given; the source in the sweep is the sum, for each direction, of all external sources given, of the fission source unless fission is implicit, of in-scatter and within-group scatter; no source is lost or counted twice whatever the order and kind.", "quantifier": "all lists of external sources of any kind and order, all quadratures of total weight 4 pi, groups, cells and directions", "why_tests_cant": "tests use one source of one kind at a time", "anchors": ["src/external_source/ConstantSource.hh", "src/external_source/IsotropicSource.hh", "src/external_source/DiscreteSource.hh", "src/transport/SweepSource.i.hh: build_fixed, source", "src/solvers/wg/WGSolver.cc: WGSolver"]}
{"id": "C103", "title": "A fixed source manager solves the problem set up, when and only when it is ready", "statement": "Whatever calls a client made before, in any order and with exceptions caught, solve answers true exactly when set_solver returned true at some point after which setup was not called again, and false with no effect otherwise; when it answers true, the flux is what the solver last asked for makes of the last set-up problem with every source given since; options come from the database as it was at the call that reads them.", "quantifier": "all sequences of calls of the manager's interface, all databases, dimensions and sources", "why_tests_cant": "tests make one sequence of calls and check the flux", "anchors": ["src/solvers/FixedSourceManager.cc: setup, set_source, set_solver, solve, update", "src/solvers/FixedSourceManager.hh", "src/solvers/wg/WGSolver.cc: set_sweep"]}
{"id": "C104", "title": "Generations of fission neutrons follow one another", "statement": "After an external source is solved for without fission, each call of iterate returns the next generation: the flux due to the fission neutrons of the previous one; the sum over the generations of a subcritical system is the flux of the system with fission.", "quantifier": "all linear transport solves, all sources, all numbers of generations", "why_tests_cant": "tests look at one generation of one problem", "anchors": ["src/solvers/FixedSourceManager.cc: iterate", "src/transport/FissionSource.i.hh: update, setup_outer"]}
{"id": "C105", "title": "An eigenvalue manager solves with the solver asked for, or says that it cannot", "statement": "The solver used is the one named in the database (power iteration by default); an unknown name is refused; solve answers true only if a solver was there and every multigroup problem it needs was solved.", "quantifier": "all databases and sequences of multigroup solves", "why_tests_cant": "tests only use solver names that exist", "anchors": ["src/solvers/EigenvalueManager.cc: EigenvalueManager, solve", "src/solvers/FixedSourceManager.cc: set_solver, solve", "src/solvers/eigen/EigenPI.cc"]}
{"id": "C106", "title": "The diffusion eigenvalue solver returns a solution of the diffusion eigenvalue problem", "statement": "Given an eigenpair of the discrete operators, the stored flux satisfies in every group and cell leakage by Fick's law plus removal less in-scatter equals spectrum times production over the stored eigenvalue, and the stored fission density is that production; in adjoint mode the operators are the transposes in the volume-weighted product, so the eigenvalues are those of the forward problem and vectors of different eigenvalues are orthogonal through the loss operator.", "quantifier": "all meshes in one to three dimensions, numbers of groups, materials, boundary conditions and eigenpairs", "why_tests_cant": "tests compare a few eigenvalues in forward mode; transposition and local balance concern every vector", "anchors": ["src/solvers/eigen/EigenDiffusion.cc", "src/solvers/eigen/Eigensolver.cc", "src/solvers/mg/DiffusionLossOperator.cc", "src/solvers/mg/DiffusionGainOperator.cc"]}
{"id": "C107", "title": "Coarse-mesh acceleration of a fixed source problem leaves the transport solution alone", "statement": "A flux that satisfies the particle balance with the tallied currents over every coarse cell, with the external sources and the multiplication factor of the problem, is left unchanged by an update; an update keeps the shape of the flux within coarse cells, its restriction is the coarse solution and positivity is kept; the outer loop stops at the first sweep that changes the flux by less than the tolerance; current weighting uses the net current.", "quantifier": "all meshes, coarsenings, groups, materials, sources, multiplication factors and relaxation factors", "why_tests_cant": "tests compare an accelerated and an unaccelerated solve of one or two problems with isotropic sources and multiplication factor one", "anchors": ["src/solvers/mg/MGSolverCMFD.cc: solve, energy_sweep, update, compute_current", "src/solvers/mg/CMFDLossOperator.cc: construct", "src/transport/Homogenize.cc"]}
{"id": "C108", "title": "Coarse-mesh acceleration of an eigenvalue problem finds the multiplication factor of the transport problem", "statement": "A positive flux that satisfies the balance over every coarse cell with fission divided by k gives an eigenpair of the coarse problem with eigenvalue k, and an update with a working eigenvalue solver returns k and leaves the flux unchanged; the loop stops at the first iteration that changes the fission density by less than the tolerance and reports the eigenvalue of its update.", "quantifier": "all meshes, coarsenings, groups, materials and relaxation histories", "why_tests_cant": "tests use problems with fission in every group; nothing checks the coarse operators on other problems", "anchors": ["src/solvers/eigen/EigenCMFD.cc: solve, cmfd_update", "src/solvers/mg/CMFDLossOperator.cc", "src/solvers/mg/DiffusionGainOperator.cc", "src/transport/Homogenize.cc"]}
{"id": "C109", "title": "The Arnoldi-type eigenvalue solver stores a solution of the transport eigenvalue problem", "statement": "Given an eigenpair of the operator handed to the eigensolver with a nonzero eigenvalue, the flux stored satisfies the multigroup transport equations with fission divided by the stored eigenvalue, and the stored fission density is the production of the stored flux; conversely the fission density of every solution of the eigenvalue problem is an eigenvector for its multiplication factor; for every order of angular moments.", "quantifier": "all meshes, materials, groups, linear sweeps, exact multigroup solvers, eigenpairs, forward and adjoint, numbers of moments", "why_tests_cant": "tests compare one eigenvalue of one problem with isotropic flux; the stored density and higher moment orders are not looked at", "anchors": ["src/solvers/eigen/EigenArnoldi.i.hh: solve", "src/solvers/eigen/EigenArnoldi.cc", "src/solvers/eigen/EnergyIndependentEigenOperator.cc: multiply", "src/transport/FissionSource.i.hh: setup_outer, update", "src/transport/FissionSource.cc: initialize"]}
{"id": "C110", "title": "The generalised Davidson eigenvalue solver works on the transport eigenvalue problem", "statement": "A number and a vector are an eigenpair of the two operators handed to the eigensolver exactly when the flux copied into the state satisfies the multigroup transport equations with fission divided by that number, in forward and adjoint mode; and every eigenvalue problem can be given to the solver, whatever its scattering.", "quantifier": "all numbers of groups, scattering structures, cutoff settings, meshes, linear sweeps, vectors and eigenvalues", "why_tests_cant": "tests use one problem and one setting of the group cutoff", "anchors": ["src/solvers/eigen/EigenGD.cc", "src/solvers/eigen/EnergyDependentEigenLHS.cc: multiply", "src/solvers/mg/MGSweepOperator.cc: multiply", "src/solvers/mg/MGScatterFissionOperator.cc: multiply", "src/solvers/mg/MGTransportOperator.cc: multiply", "src/solvers/mg/MGSolverGMRES.cc"]}
{"id": "C111", "title": "A preconditioner changes the number of iterations, not the answer", "statement": "The diffusion preconditioners of the transport solvers map only zero to zero whenever their diffusion problem is solved, so that the preconditioned systems have exactly the solutions of the transport equations and the convergence theorems of GMRES apply: within one group, over all groups of the Krylov block, on a coarse mesh (exactly when the coarse operator plus the coarse source is invertible) and with transport corrections (each squares the error); on vectors with reflected boundary values, forward and adjoint, for every eigenvalue factor.", "quantifier": "all meshes, materials, cutoffs, boundary conditions, sources, vectors, diffusion solvers that solve, numbers of corrections, sides", "why_tests_cant": "tests compare one preconditioned solution on a problem with vacuum boundaries with the unpreconditioned one", "anchors": ["src/solvers/wg/PC_DSA.i.hh: apply", "src/solvers/mg/MGDSA.cc: apply, build", "src/solvers/mg/MGCMDSA.cc: apply", "src/solvers/mg/MGTCDSA.cc: apply", "src/solvers/mg/MGPreconditioner.cc", "src/solvers/mg/MGSolverGMRES.cc", "src/callow/solver/GMRES.cc"]}
{"id": "C112", "title": "Solver vectors behave like values", "statement": "Vectors of the linear algebra library can be created, copied, resized, assigned, made views of memory the caller owns, changed elementwise with other vectors and destroyed in any order; a program that only reads and writes elements it has sees exactly what it would see if every vector owned its own list of numbers and views were windows on the caller's array; no memory is freed twice, none is used after being freed, and when every vector is destroyed none is left.", "quantifier": "all programs over any number of vectors, sizes, arrays, offsets, contents and element types", "why_tests_cant": "tests run a handful of short programs; double frees and leaks do not show in their results, and none assigns a vector", "anchors": ["src/callow/vector/Vector.hh", "src/callow/vector/Vector.cc", "src/callow/vector/Vector.i.hh: set, scale, add, subtract, multiply, divide, copy, add_a_times_x"]}
{"id": "C113", "title": "The norms that decide convergence of the linear solvers are norms", "statement": "Each kind of vector norm is the quantity it is named after, vanishes for the zero vector only, scales with the vector and obeys the triangle inequality; products are bounded by the norms; each kind of residual norm is the norm of the difference of two vectors, and the relative kinds do not change when both vectors are multiplied by the same number.", "quantifier": "all sizes, vectors, scale factors and kinds of norm", "why_tests_cant": "tests take one norm of one small vector; no kind is tried that is not implemented", "anchors": ["src/callow/vector/Vector.i.hh: norm, norm_residual, dot", "src/callow/utils/CallowDefinitions.hh"]}
{"id": "C114", "title": "What is written to an HDF5 file is read back", "statement": "A program that writes an input database, a material and a mesh to a file and reads them back, in any order and closing the file whenever it likes, gets what it wrote last: every entry of the database and of its nested databases, all cross sections and derived data of the material, all cell widths and maps of the mesh; asking for what was never written is an error, and calls report success only if they did what they say.", "quantifier": "all databases with any nesting, all materials and meshes, all sequences of write, read and close calls, all earlier contents of the file", "why_tests_cant": "tests write one small input, material and mesh once, and never compare the diffusion coefficients, write twice or write after closing", "anchors": ["src/ioutils/IO_HDF5.cc: IO_HDF5::open, write, close, read_input, read_material, read_mesh", "src/ioutils/IO_HDF5.t.hh: write_map, read_data, read_map, write_vec, read_vec, read_scalar_attribute", "src/ioutils/IO_HDF5_Traits.hh"]}
{"id": "C115", "title": "The executable solves the problem described in its input file", "statement": "Running the executable on an input file solves the problem described there: the dimension, problem type, scaling factor, source and solver are those of the file, the flux at the end is what that solver makes of that source (or the flux and eigenvalue of the eigenvalue solver asked for), missing entries have their defaults, unknown ones are reported, and the exit code tells whether the run succeeded.", "quantifier": "all input files: all databases, materials and meshes they may hold, all sources, options and solvers", "why_tests_cant": "no test runs the executable or the class behind it", "anchors": ["src/drivers/Execute.cc: Execute::Execute, Execute::solve", "src/drivers/detran.cc: main", "src/solvers/FixedSourceManager.cc: set_solver, solve", "src/solvers/EigenvalueManager.cc: solve"]}
{"id": "C116", "title": "Pictures show the cell or region at each point", "statement": "A picture written of a mesh map, a flux or a geometry is there for every mesh or geometry, every pixel has the colour of the value in the cell (region, material) in which its point lies, rows and columns follow the directions of space, larger values have at least as much red and at most as much blue, every cell is shown if at least two points fall on the smallest one, and the interpolated and random maps give each value a colour between its neighbours' or one of its own.", "quantifier": "all meshes, geometries, fields of values, resolutions and colour maps (cool-warm excepted), and earlier contents of the plotter", "why_tests_cant": "the tests draw one geometry and look at nothing; no test writes a picture of a mesh", "anchors": ["src/ioutils/PPMOutput.cc: initialize, write_mesh_map, write_scalar_flux, draw_geometry", "src/ioutils/PPMPlotter.cc: initialize, set_pixel, write", "src/ioutils/ColorMap.cc: color, colors_function, colors_random, colors_interp"]}
{"id": "C117", "title": "The LRA benchmark material is that of the current time and temperatures", "statement": "After any sequence of calls, updating the material of the LRA benchmark to a time leaves the cross sections of that time and of the temperatures now stored, independent of earlier updates: totals are absorption plus scattering out, the rod is withdrawn continuously and never gains absorption, fuel absorbs more when hotter and the reflector does not react, absorption and totals stay positive, at the start the transient material is the steady one, power and heating are proportional to the fission rate, and the temperatures reported are the current ones.", "quantifier": "all meshes with region maps of values 0 to 5, all sequences of updates, times, step sizes, orders, temperatures, fluxes and eigenvalues, transport and diffusion, steady and transient", "why_tests_cant": "the only test program with the class runs one transient and compares nothing; which entries are overwritten by each update depends on the history of calls", "anchors": ["src/solvers/time/LRA.cc: LRA::LRA, initialize_materials, update_impl, update_P_and_T", "src/solvers/time/LRA.hh: tables, T, P, area", "src/kinetics/TimeDependentMaterial.cc: update"]}
{"id": "C118", "title": "Spectra for condensation belong to their materials", "statement": "The spectra used to condense groups are those of each material: the Gauss-Seidel spectrum is the error shape a sweep over the groups of the infinite medium multiplies by a factor, the fixed-source spectrum is the scaled flux of the infinite medium with the source given and with production by fission over the eigenvalue given, and the pin cell spectrum is the scaled integrated flux of the pin cell at that eigenvalue; every material has a spectrum that can be divided by.", "quantifier": "all materials, numbers of groups, cross sections, sources, eigenvalues and pin cells; exact linear and eigenvalue solvers", "why_tests_cant": "tests look at the first material only and at one eigenvalue; the fixed-source spectrum has no test", "anchors": ["src/solvers/mg/SpectrumGS.cc: spectrum", "src/solvers/mg/SpectrumFS.cc: spectrum", "src/solvers/mg/SpectrumPinCell.cc: spectrum", "src/solvers/mg/MGCoarseMeshPreconditioner.cc: build, shape"]}
{"id": "C119", "title": "The reduced-order solver solves the projected problem", "statement": "The reduced-order solver reads the basis of its file, projects the operators on it and returns the solution of the projected problem in terms of the full one: the reduced operator is the product of the transposed basis, the operator and the basis; the residual of what is returned is orthogonal to every basis vector; if the basis can represent the eigenvector of the full problem, its coefficients solve the reduced problem with the same eigenvalue; the flux returned is an eigenvector if the expanded one is; unknown options have their default, files that do not fit are reported, and the input stays that of the user.", "quantifier": "all operators that are matrices, all bases, files and options; reduced eigenvalue solver exact", "why_tests_cant": "the tests compare the eigenvalue for one core with stored bases and print the flux errors without testing them; no test has an eigenvector of mixed sign, a basis that cannot represent the answer or a file that is missing or short", "anchors": ["src/solvers/rom/ROMBasis.cc: GetBasis", "src/solvers/rom/OperatorProjection.cc: SetOperators, Project", "src/solvers/rom/ROMSolver.cc: ROMSolver, Set_FullOperators, Solve"]}
{"id": "C120", "title": "The incomplete factorization preconditioner keeps what it says it keeps", "statement": "Constructing the threshold preconditioner of a matrix with room for whole rows and threshold zero gives the complete factorization, and applying it solves the system; with a limit on the number of values per row the diagonal and the largest values of each side remain, values below the threshold are dropped, and with the options left out the preconditioner can be constructed; for sparse matrices as well.", "quantifier": "all sizes, matrices with a factorization, sparsity patterns, limits, thresholds, right hand sides and orders of equal values in the sorts", "why_tests_cant": "the tests compare the complete factorization and the one without fill-in for a single matrix with eight rows; a positive threshold is only run, and no test selects the preconditioner through the options", "anchors": ["src/callow/preconditioner/PCILUT.cc: PCILUT, drop_t, drop_p", "src/callow/matrix/SparseRow.cc", "src/callow/solver/LinearSolver.cc: LinearSolver"]}
{"id": "C121", "title": "Tracks cover the geometry in every direction", "statement": "Tracking a plane geometry with a product quadrature gives, for every azimuth and each of the four octants, tracks that cross the geometry in that direction from an incoming to an outgoing side, beginning at the points of the spatial quadrature; following a track passes the segments the geometry has between its ends, in the order of travel; the weights of the tracks of a direction add up to the width of the geometry seen from it, neighbouring tracks are no further apart than the maximum spacing asked for, and a tracker can be used for one geometry after another.", "quantifier": "all box sizes, numbers of azimuths, directions inside the quadrant, spatial quadratures with points inside and weights that add up to the length, spacings, minimum numbers and geometries; two calls for the last part", "why_tests_cant": "the only test is one unit square at 45 degrees, where sine and cosine agree, looks at two tracks of the first octant and has a note that all quadrants should be checked; no weight is tested and no tracker used twice", "anchors": ["src/geometry/Tracker.cc: Tracker, trackit, find_exit, generate_tracks_2D_cartesian, generate_tracks_3D_cartesian, segmentize", "src/geometry/Track.cc: reverse, enter, exit"]}
{"id": "C122", "title": "Random numbers follow the generator asked for", "statement": "The numbers returned by successive calls of a random number generator are those of the linear congruential sequence with the seed, multiplier, increment and modulus given, divided by the modulus; they lie between zero and one, one excluded; with an odd seed the sequence repeats after a quarter of the modulus and not before, takes every value it can take once in that time, and is never zero.", "quantifier": "all seeds, multipliers, increments, numbers of bits up to 62 and numbers of calls", "why_tests_cant": "the test compares ten numbers of the default generator; the period is 2^46 calls and no test gives an argument", "anchors": ["src/utilities/Random.hh: Random::Random, rnd"]}
{"id": "C123", "title": "Sweeps with several threads give the result of the sweep without", "statement": "In a build with OpenMP a transport sweep leaves the flux moments, boundary fluxes, angular fluxes and current tallies of the sweep without threads, whatever the number of threads, the way directions are handed out to them and the order in which they proceed, and the threads can always come to the end.", "quantifier": "all numbers of threads, assignments of directions, interleavings of loads, stores and boundary updates, orders of the critical sections, meshes, spatial equations, sources, quadratures, orders of octants and boundary conditions, in one, two and three dimensions", "why_tests_cant": "tests are built without OpenMP; a race shows up only in some interleavings, of which there are too many to run", "anchors": ["src/transport/Sweeper1D.i.hh: sweep", "src/transport/Sweeper2D.i.hh: sweep", "src/transport/Sweeper3D.i.hh: sweep", "src/transport/CurrentTally.cc: reset", "src/boundary/BoundarySN.i.hh: update"]}
{"id": "C124", "title": "Group solves with reflecting sides find the flux that is its own reflection", "statement": "The flux a within-group solve returns is the scalar flux of angular fluxes that satisfy the cell equations with the fixed source and the scatter of that same flux, with nothing entering at vacuum sides, the given flux entering at fixed sides, the flux of the mirror direction entering at reflecting sides and the flux leaving the opposite side entering at periodic ones. An error left in the linear system is an error of that size in the flux of a cell or in the reflection at a place. Every such flux is found, source iteration and the Krylov solver agree, the operator of the Krylov solver is linear and does not depend on what earlier sweeps left behind, and the boundary fluxes after the solve are those of the solution.", "quantifier": "all meshes, numbers of angles, linear spatial equations, orders of octants, boundary conditions, sources, states before the solve, vectors the linear solver may return, in one, two and three dimensions", "why_tests_cant": "tests compare the first cell's flux of a homogeneous slab with both sides reflecting, where the flux is flat; boundary fluxes after a solve, mixed conditions, residuals left by the linear solver and periodic sides are not tested", "anchors": ["src/solvers/wg/WGTransportOperator.cc: multiply, WGTransportOperator", "src/solvers/wg/WGSolverGMRES.i.hh: solve, build_rhs", "src/solvers/wg/WGSolverSI.i.hh: solve", "src/boundary/BoundarySN.i.hh: psi, update, clear, set"]}
{"id": "C125", "title": "Multigroup solves with reflecting sides find every group's flux", "statement": "The fluxes a multigroup solve returns, with some groups solved one at a time and the others together, are the scalar fluxes of angular fluxes that in every group satisfy the cell equations with external and discrete sources and the scatter and fission of the returned fluxes of all groups, with nothing entering at vacuum sides, the given flux at fixed sides and the flux of the mirror direction at reflecting ones. An error left in the linear system is an error of that size in the flux of a cell of a group or in the reflection at a place. Every such set of fluxes is found, the operator is linear and does not depend on what earlier sweeps left behind, and a solver used again with other sources, as in power iteration and time stepping, finds the fluxes for those.", "quantifier": "all numbers of groups, cutoffs, forward and adjoint mode, materials, meshes, numbers of angles, linear spatial equations, orders of octants, side conditions, sources, states before the solve, vectors the linear solver may return, in one, two and three dimensions; two solves for the last part", "why_tests_cant": "tests compare one cell's flux in each group of a homogeneous slab, flat with both sides reflecting, after one solve with all groups or none in the block; a second solve with the same solver is made only by eigenvalue and transient tests, which compare a few digits of one configuration", "anchors": ["src/solvers/mg/MGTransportOperator.cc: multiply, MGTransportOperator", "src/solvers/mg/MGSolverGMRES.i.hh: solve, build_rhs, group_sweep, solve_wg_reflection", "src/solvers/mg/MGSolverGMRES.cc: MGSolverGMRES", "src/solvers/wg/WGSolverSI.i.hh: solve"]}
{"id": "C126", "title": "A transient is the sequence of implicit steps from the initial state, and a steady state stays", "statement": "Time stepping from given fluxes never fails for positive velocities and decay constants, leaves the stepper usable, and shows one sequence of solutions that does not depend on how many steps are asked for: it starts from the fluxes given, the physics variables held and precursors in equilibrium, and each next solution satisfies the time-dependent transport (or diffusion), precursor and physics equations with the implicit difference of the right order at the end of the step, or by the midpoint rule, with the material and the sources of that time, up to what the multigroup solve leaves over; passes are repeated until converged or until the limit. With exact solves and everything constant, a steady state is kept for ever; solving again gives the same transient.", "quantifier": "all schemes, step sizes, numbers of steps and passes, meshes, groups, precursor groups, directions, physics functions, sources and time-dependent materials whose data depend on time and physics, any solver with a residual bound, any earlier use of the stepper", "why_tests_cant": "the one transient test that compares numbers takes the first few steps of each scheme in one group, one material, without fission, precursors, physics or leakage; the other transient programs only print; none starts from a steady state with everything constant or solves twice", "anchors": ["src/solvers/time/TimeStepper.cc: solve, step, initialize_precursors, update_precursors, update_multiphysics, update_sources, extrapolate, cycle_states_precursors", "src/kinetics/TimeDependentMaterial.cc: update", "src/kinetics/SyntheticMomentSource.i.hh: build", "src/kinetics/SyntheticDiscreteSource.i.hh: build"]}
{"id": "C127", "title": "Making a solver does not change which solvers are made later", "statement": "Which linear and eigenvalue solvers are built for a problem, and their tolerances, iteration limits and print levels, are decided by the entries the program has put into its input: by the solver databases in it, or else by the inner and outer settings. Building a solver, an eigenvalue solver or a reduced-order solver from the same input before makes no difference, and entries changed between two solvers count for the second. Building a solver changes no entry the program has made, in the input or in any other database.", "quantifier": "all inputs and databases, shared or nested, all sequences of making, filling and copying databases and building solvers (diffusion, Gauss-Seidel, CMFD, GMRES within and over groups, with the transport-corrected preconditioner or not), eigenvalue solvers and reduced-order solvers, in any order; any addresses for new databases", "why_tests_cant": "every test fills one input and builds solvers from it without changing a setting in between; a dependence on the solvers built before shows only as another tolerance, which changes digits no test compares", "anchors": ["src/solvers/mg/MGSolverGMRES.cc: MGSolverGMRES", "src/solvers/wg/WGSolverGMRES.cc: WGSolverGMRES", "src/solvers/mg/MGDiffusionSolver.cc: MGDiffusionSolver", "src/solvers/mg/MGTCDSA.cc: MGTCDSA", "src/solvers/eigen/EigenGD.cc: EigenGD", "src/solvers/eigen/EigenArnoldi.cc: EigenArnoldi", "src/solvers/eigen/EigenDiffusion.cc: EigenDiffusion", "src/solvers/rom/ROMSolver.cc: Set_FullOperators", "src/solvers/FixedSourceManager.cc: set_solver"]}
{"id": "C128", "title": "Source iteration finds the group's only flux whenever scattering is less than the total", "statement": "If in every cell within-group scattering is less than the total cross section, a group has exactly one scalar flux. From any starting flux, and any boundary fluxes earlier solves have left, the passes of source iteration approach it in every cell, so that the iteration ends by its own test for every tolerance, and the error it then has is bounded by the tolerance and the scattering ratio. The linear system given to GMRES has a solution, and all its solutions have this flux.", "quantifier": "all meshes, materials, positive weights and directions, octant orders, sources, vacuum, reflecting and fixed sides in any combination, diamond differencing, step differencing and step characteristics in one and two dimensions, diamond differencing in three, all starting states, tolerances and numbers of passes", "why_tests_cant": "tests solve a few problems with one tolerance and compare one number; that an iteration converges for every mesh and every combination of sides, and what its stopping test says about the error, cannot be seen from runs that happened to stop", "anchors": ["src/solvers/wg/WGSolverSI.i.hh: solve", "src/solvers/wg/WGSolverGMRES.i.hh: solve, build_rhs", "src/solvers/wg/WGTransportOperator.cc: multiply", "src/transport/Sweeper1D.i.hh: sweep", "src/transport/Sweeper2D.i.hh: sweep", "src/transport/Sweeper3D.i.hh: sweep", "src/boundary/Reflective.i.hh: update", "src/utilities/MathUtilities.hh: norm_residual"]}
{"id": "C129", "title": "Gauss-Seidel over the groups finds the only flux of weakly coupled groups", "statement": "If the groups are coupled by scattering (and, for a fixed-source problem with fission, by fission) less than they collide, all groups together have exactly one set of scalar fluxes. The passes of the multigroup Gauss-Seidel solver approach it in every group and cell from any start: at a fixed rate if the groups are solved exactly, at the same rate with any limit on the inner passes if no side reflects, and with one inner pass per group whatever the sides. The outer iteration then ends by its own test without a warning, the largest change it measures bounds the error of what it returns, and the multigroup Krylov solver finds the same fluxes.", "quantifier": "all numbers of groups, coupling patterns up and down in energy with weights that keep them below the totals (among them every one-material problem whose groups send out less than they collide, and every problem that only scatters downward), meshes, sources, vacuum, fixed and reflecting sides, the schemes of one, two and three dimensions, group orders, starting states, inner and outer tolerances and limits", "why_tests_cant": "the test of this solver runs one small problem with limits of a million passes and tolerances of 1e-14; that the nested iteration converges with loose inner solves for every coupling and mesh, at what rate, and what its stopping test says about the error is a statement about infinitely many runs", "anchors": ["src/solvers/mg/MGSolverGS.i.hh: solve", "src/solvers/mg/MGSolverGS.cc: MGSolverGS", "src/solvers/wg/WGSolverSI.i.hh: solve", "src/solvers/mg/MGSolverGMRES.i.hh: solve", "src/transport/ScatterSource.i.hh: build_within_group_source, build_in_scatter_source", "src/transport/FissionSource.i.hh: build_within_group_source, build_in_fission_source", "src/utilities/MathUtilities.hh: norm, norm_residual"]}
{"id": "C130", "title": "Source and detector may be exchanged, and an adjoint solve gives the importance of sources", "statement": "In one group, a source in one place gives the same response elsewhere as the exchanged source does here, volume for volume: the discretised transport problem is reciprocal, with the schemes' own cell averages. With several groups the adjoint mode, with the detector as its source, gives the same response as the forward mode gives with the source and the detector: the volume sum of detector times forward flux is the volume sum of source times adjoint flux. Forward and adjoint multiplication factors agree when fluxes are positive and something fissions. Directional sources are weighted with the adjoint angular flux of the opposite direction.", "quantifier": "all numbers of groups, cross sections (coupling up and down, fission included), meshes, quadratures with the same angles in every octant, vacuum and reflecting sides, sources, detectors; diamond, step and step-characteristic schemes in one and two dimensions, diamond in three; solutions of the equations, what the Krylov solver returns, and the limit of the Gauss-Seidel passes", "why_tests_cant": "tests compare a few adjoint eigenvalues with stored numbers; that the discrete problem is exactly self-adjoint in space and direction, for every mesh, scheme and source pair, and that switching the mode is exactly its transpose, cannot be seen from stored values", "anchors": ["src/transport/Sweeper.cc: set_adjoint, setup_spatial_indices", "src/transport/ScatterSource.i.hh: build_in_scatter_source, build_total_group_source", "src/transport/FissionSource.i.hh: build_in_fission_source, build_total_group_source", "src/transport/Equation_DD_1D.i.hh: solve", "src/transport/Equation_SD_1D.i.hh: solve", "src/transport/Equation_SC_1D.i.hh: solve", "src/transport/Equation_DD_2D.i.hh: solve", "src/transport/Equation_SD_2D.i.hh: solve", "src/transport/Equation_SC_2D.i.hh: solve", "src/transport/Equation_DD_3D.i.hh: solve", "src/angle/Quadrature.cc: set_adjoint", "src/solvers/mg/MGSolverGMRES.i.hh: solve", "src/solvers/mg/MGSolverGS.i.hh: solve"]}
{"id": "C131", "title": "A uniform problem between mirrors gives the flux of the infinite medium", "statement": "If the source and the cross sections of every group are the same in all cells, the groups scatter and breed less than they collide and every side reflects, the flux every solver finds is the same number in all cells of a group: the solution of the balance of the medium, total times flux equals source plus what scattering and fission bring in; in one group, the source over the total less scattering. The widths of the cells, the scheme, the quadrature, the order of octants and the diffusion coefficients make no difference, and transport and diffusion agree. The same holds if the isotropic flux, or its partial current, is given on some sides. With fission, the medium's own fluxes are an eigenvector of the discretised problem, and positive fluxes have the multiplication factor of the medium.", "quantifier": "all numbers of groups, cross sections, fluxes, meshes, quadratures with normalised weights, octant orders, dimensions; diamond, step and step-characteristic schemes in one and two dimensions, mixed by cell, diamond in three; mesh-centred diffusion with any diffusion coefficients by cell; what solves the equations, the limit of the Gauss-Seidel passes, what the Krylov solver returns and what solves the diffusion matrix", "why_tests_cant": "tests solve one homogeneous slab and compare one cell with stored numbers; that the answer is independent of mesh, scheme, quadrature and method for every set of cross sections ranges over infinitely many problems", "anchors": ["src/transport/Equation_DD_1D.i.hh: solve", "src/transport/Equation_SD_1D.i.hh: solve", "src/transport/Equation_SC_1D.i.hh: solve", "src/transport/Equation_DD_2D.i.hh: solve", "src/transport/Equation_SD_2D.i.hh: solve", "src/transport/Equation_SC_2D.i.hh: solve", "src/transport/Equation_DD_3D.i.hh: solve", "src/boundary/Reflective.i.hh: update", "src/boundary/FixedBoundary.i.hh: set", "src/solvers/mg/MGSolverGS.i.hh: solve", "src/solvers/mg/MGSolverGMRES.i.hh: solve", "src/solvers/mg/DiffusionLossOperator.cc: build", "src/solvers/mg/MGDiffusionSolver.cc: build_volume_source, build_boundary_source, solve"]}
{"id": "C132", "title": "Fluxes have the right sign, grow with what is put in, and iterations from nothing rise to them", "statement": "If no source, incident flux or incident current is negative, no scalar or angular flux the solver finds is negative, and no negative partial current leaves. More source, more scattering or fission, more coming in at a side, or a reflecting side in place of an open one lowers the flux nowhere. A flux that is flat in every group and collides everywhere at least as much as the sources and the groups bring in is an upper bound, one that collides at most as much a lower bound. There is one solution; Gauss-Seidel reaches it from any start, with any number of inner iterations, any inner tolerance and any reflecting sides, at a geometric rate; started from nothing, every pass raises the flux and none exceeds the solution, so what the solver returns, with whatever tolerances and limits, lies between zero and the solution.", "quantifier": "all numbers of groups, cross sections with nonnegative coupling that some positive group weights show to be weaker than the collisions, sources, meshes, quadratures with normalised weights, octant orders, vacuum, reflecting and fixed sides; step differencing and step characteristics in one and two dimensions mixed by cell, diamond differencing in one dimension in cells no thicker than twice the cosine; mesh-centred diffusion in one to three dimensions with any diffusion coefficients", "why_tests_cant": "a test sees the sign of one computed flux vector; that no admissible problem gives a negative flux, that raising any datum lowers no flux and that every iterate lies below the limit are statements over all problems and all pairs of problems", "anchors": ["src/transport/Equation_DD_1D.i.hh: solve", "src/transport/Equation_SD_1D.i.hh: solve", "src/transport/Equation_SC_1D.i.hh: solve", "src/transport/Equation_SD_2D.i.hh: solve", "src/transport/Equation_SC_2D.i.hh: solve", "src/boundary/Reflective.i.hh: update", "src/boundary/FixedBoundary.i.hh: set", "src/solvers/wg/WGSolverSI.i.hh: solve", "src/solvers/mg/MGSolverGS.i.hh: solve", "src/solvers/mg/DiffusionLossOperator.cc: build", "src/solvers/mg/MGDiffusionSolver.cc: solve, build_boundary_source, fill_boundary"]}
{"id": "C133", "title": "There is one fundamental multiplication factor, bounded by what the medium can make", "statement": "A problem with fissile cells that neutrons can travel between has a multiplication factor with a fission density positive in every fissile cell. It is the only factor with such a density, that density is unique up to scale, and no other real factor is larger in magnitude. It lies between the smallest and the largest ratio by which any positive density grows in one generation. No factor exceeds the one a flat flux spectrum that collides everywhere at least as much as it scatters and breeds shows for the infinite medium, and between mirrors a spectrum that collides everywhere at most as much bounds it from below. Raising a fission yield, a spectrum entry or a scattering cross section at fixed totals, or replacing an open side by a mirror, lowers no factor. Forward and adjoint mode alike.", "quantifier": "all numbers of groups, nonnegative fission data by cell, nonnegative coupling that some positive group weights show to be weaker than the collisions, meshes, quadratures with normalised weights, vacuum and reflecting sides; step differencing and step characteristics in one and two dimensions mixed by cell, diamond differencing in one dimension in cells thinner than twice the cosine; mesh-centred diffusion in one to three dimensions; any other solver of fission sources that is linear and gives no negative flux", "why_tests_cant": "tests compare single eigenvalues with stored numbers; that a dominant factor exists, is unique and moves the right way with every datum is a statement over all problems, all pairs of problems and all modes of each", "anchors": ["src/solvers/eigen/EigenPI.i.hh: solve", "src/transport/FissionSource.i.hh: update, setup_outer", "src/transport/FissionSource.cc: initialize", "src/transport/Equation_DD_1D.i.hh: solve", "src/transport/Equation_SD_1D.i.hh: solve", "src/transport/Equation_SC_1D.i.hh: solve", "src/transport/Equation_SD_2D.i.hh: solve", "src/transport/Equation_SC_2D.i.hh: solve", "src/boundary/Reflective.i.hh: update", "src/solvers/mg/DiffusionLossOperator.cc: build", "src/solvers/mg/DiffusionGainOperator.cc: build", "src/solvers/mg/MGDiffusionSolver.cc: solve"]}
{"id": "C134", "title": "Power iteration finds the fundamental multiplication factor", "statement": "If the multigroup solver gives the fluxes of each fission source, power iteration without relaxation started from any flux keeps the density positive in every fissile cell and zero elsewhere; from the growth of two successive densities the factor can be enclosed, and the enclosures are nested. Estimates and normalised densities converge to the fundamental factor and density at a geometric rate. For every sufficiently small tolerance and a sufficient limit the solver stops without its warning and stores an eigenvalue within a fixed multiple of the tolerance of the fundamental factor.", "quantifier": "all starting fluxes, tolerances and limits, all problems of C133, forward and adjoint, in which some fissile cell has a positive yield; instances in one dimension (step, step characteristics, thin diamond, mixed by cell) and two (step; step and step characteristics mixed if every cell scatters within every group), and diffusion in one to three, vacuum and reflecting sides", "why_tests_cant": "a test runs one problem to one tolerance and compares with one number; convergence from every start, to the right mode of every problem, and what the stopping test says about the error of the stored value are statements about infinitely many runs", "anchors": ["src/solvers/eigen/EigenPI.i.hh: solve", "src/solvers/eigen/EigenPI.cc: EigenPI", "src/transport/FissionSource.i.hh: update, setup_outer, density", "src/transport/FissionSource.cc: initialize", "src/solvers/mg/MGSolver.hh: solve", "src/utilities/MathUtilities.hh: norm, norm_residual"]}
{"id": "C135", "title": "Backward Euler transients keep fluxes and precursors nonnegative and grow no faster than the media let them", "statement": "With the first order scheme, if the initial flux and the external sources have no negative values then no step gives a negative flux or precursor concentration. If at all times every material by itself, without streaming, would let group fluxes v and precursors W grow at most at a rate omega (the point kinetics inequalities) and omega times the step is less than one, fluxes that start below v with their equilibrium precursors are below v, and precursors below W, times 1/(1 - omega dt) to the power n after n steps; with the inequalities reversed and mirrors all round they are not below. The bounds hold for any number of passes per step and with feedback on the material data. Both restrictions are needed: every other scheme (midpoint, orders two to six, extrapolated or not) makes fluxes of a pure absorber negative in long steps, and steps longer than the inverse of the growth rate make them negative with backward Euler.", "quantifier": "all meshes, materials, numbers of groups and precursor groups, time dependence and feedback, initial fluxes, nonnegative sources, step sizes with omega dt < 1, numbers of steps and passes; diffusion in one to three dimensions; transport in one dimension (step, step characteristics, thin diamond, mixed by cell) and two (step, step characteristics), vacuum and reflecting sides; any solver with the comparison property", "why_tests_cant": "tests follow a few transients over a few steps and compare with one reference number; that no arrangement, step size or feedback gives a negative flux, and that the growth is bounded by the media however long the transient runs, are statements about infinitely many runs", "anchors": ["src/solvers/time/TimeStepper.cc: solve, step, initialize_precursors, update_precursors, update_sources", "src/kinetics/TimeDependentMaterial.cc: update", "src/kinetics/SyntheticMomentSource.i.hh: build", "src/kinetics/SyntheticDiscreteSource.i.hh: build", "src/solvers/mg/MGDiffusionSolver.cc: solve", "src/solvers/FixedSourceManager.cc: update, solve"]}
{"id": "C136", "title": "Refining a slab mesh brings the fluxes to those of the transport equation", "statement": "For a slab whose discrete ordinates transport equations have a continuous solution, the scalar flux the solver finds in every cell of every mesh that follows the material interfaces differs from the exact scalar flux anywhere in that cell by no more than a constant times the widest cell, with step differencing, diamond differencing and step characteristics in any mixture. The constant does not depend on the mesh. So any accuracy is reached by every sufficiently fine mesh, uniform or not; on such meshes the Gauss-Seidel solver gets within it from any start. With diamond differencing and step characteristics, in any mixture, the error at the cell centres is no more than a constant times the square of the widest cell; with step differencing it is not.", "quantifier": "all slabs with piecewise constant cross sections and sources, numbers of groups, nonnegative coupling (scattering and fission) that some positive group weights show to be weaker than the collisions, quadratures with positive normalised weights, vacuum, reflecting and fixed sides, all meshes with interfaces at cell edges, uniform or not, scheme by cell, group and angle, octant orders, starting fluxes and inner iterations", "why_tests_cant": "a test compares one flux on one mesh with one reference; convergence is a statement about all meshes, and observing an order on a few of them says nothing about the next", "anchors": ["src/transport/Equation_DD_1D.i.hh: solve", "src/transport/Equation_SD_1D.i.hh: solve", "src/transport/Equation_SC_1D.i.hh: solve", "src/transport/Sweeper1D.i.hh: sweep", "src/boundary/Reflective.i.hh: update", "src/boundary/FixedBoundary.i.hh: set", "src/solvers/wg/WGSolverSI.i.hh: solve", "src/solvers/mg/MGSolverGS.i.hh: solve"]}
{"id": "C137", "title": "Refining a slab mesh brings the multiplication factor to that of the transport equation", "statement": "For a slab whose discrete ordinates eigenvalue problem has continuous angular fluxes with positive scalar flux and a factor k, the multiplication factor of every sufficiently fine mesh that follows the material interfaces differs from k by no more than a constant times the widest cell, with step differencing, diamond differencing and step characteristics in any mixture. With diamond differencing and step characteristics, in any mixture, it differs by no more than a constant times the square of the widest cell. The constants do not depend on the mesh. On such meshes power iteration with exact group solves returns without a warning, from any start, a factor as close to k as one likes, for small tolerances and enough iterations.", "quantifier": "all slabs with piecewise constant cross sections, numbers of groups, nonnegative scattering that some positive group weights show to be weaker than the collisions, nonnegative fission data, forward and adjoint, quadratures with positive normalised weights, vacuum and reflecting sides, all meshes with interfaces at cell edges, uniform or not, scheme by cell, group and angle, octant orders, starting fluxes, tolerances and iteration limits beyond the stated thresholds", "why_tests_cant": "an eigenvalue test compares one number on one mesh with a reference to some digits; a factor that tends to a wrong limit by less than the tolerance of the test passes", "anchors": ["src/transport/Equation_DD_1D.i.hh: solve", "src/transport/Equation_SD_1D.i.hh: solve", "src/transport/Equation_SC_1D.i.hh: solve", "src/transport/Sweeper1D.i.hh: sweep", "src/boundary/Reflective.i.hh: update", "src/transport/FissionSource.i.hh: update, setup_outer", "src/solvers/eigen/EigenPI.i.hh: solve", "src/solvers/mg/MGSolverGS.i.hh: solve"]}
{"id": "C138", "title": "Refining a slab mesh brings the diffusion fluxes to those of the diffusion equation", "statement": "For a slab whose multigroup diffusion equations have a solution with continuous fluxes and currents, the flux the mesh-centred diffusion solver finds in every cell of every mesh that follows the material interfaces differs from the exact flux in the middle of that cell by no more than a constant times the square of the widest cell. The constant does not depend on the mesh. So every sufficiently fine mesh, uniform or not, reaches any accuracy anywhere in its cells. At sides with an incident partial current the limit has exactly that partial current, at reflecting sides no current.", "quantifier": "all slabs with piecewise constant diffusion coefficients, cross sections and sources, numbers of groups, nonnegative coupling (scattering and fission) that some positive group weights show to be weaker than the collisions, vacuum, reflecting and fixed sides, all meshes with interfaces at cell edges, uniform or not, and every solution of the linear system", "why_tests_cant": "a test compares one flux on one mesh with a stored or analytic number; second order on every mesh, also where coarse cells meet fine ones and where materials change, is a statement about all meshes", "anchors": ["src/solvers/mg/DiffusionLossOperator.cc: build", "src/solvers/mg/MGDiffusionSolver.cc: solve, build_volume_source, build_boundary_source"]}
{"id": "C139", "title": "Refining a slab mesh brings the multiplication factor of diffusion to that of the diffusion equation", "statement": "For a slab whose diffusion eigenvalue problem has continuous currents and continuous positive fluxes with a factor k, the multiplication factor of every sufficiently fine mesh that follows the material interfaces differs from k by no more than a constant times the square of the widest cell. The constant does not depend on the mesh. On such meshes power iteration with exact diffusion solves returns without a warning, from any start, a factor as close to k as one likes, for small tolerances and enough iterations.", "quantifier": "all slabs with piecewise constant data, numbers of groups, nonnegative scattering that some positive group weights show to be weaker than the collisions, nonnegative fission data, forward and adjoint, vacuum and reflecting sides, all meshes with interfaces at cell edges, uniform or not, starting fluxes, tolerances and iteration limits beyond the stated thresholds", "why_tests_cant": "an eigenvalue test compares one number on one mesh with a reference to some digits; a factor that tends to a wrong limit by less than the tolerance of the test passes", "anchors": ["src/solvers/mg/DiffusionLossOperator.cc: build", "src/solvers/mg/DiffusionGainOperator.cc: build", "src/transport/FissionSource.i.hh: update, setup_outer", "src/solvers/eigen/EigenPI.i.hh: solve", "src/solvers/mg/MGDiffusionSolver.cc: solve"]}
{"id": "C140", "title": "A symmetric problem gives symmetric fluxes, those of its half or quarter with mirrors", "statement": "The fluxes of a slab or rectangle seen in a mirror, or with its axes exchanged, are the mirrored or exchanged fluxes; so are its modes, with the same multiplication factor. The fluxes of half of a slab or rectangle that is symmetric about a middle plane, with a reflecting side there, unfold to fluxes of the whole, and so for a quarter of a rectangle symmetric about both; modes likewise with the same factor. Where the whole and the part each have only one set of fluxes, those of the whole are therefore symmetric, and Gauss-Seidel iterates of whole and part, in whatever octant order and from whatever start, come arbitrarily close to each other. The factors that power iteration stores for whole and part differ by no more than a multiple of the tolerance.", "quantifier": "all meshes, materials, sources, numbers of groups and angles, cell equations of any form for the unfolding; vacuum, reflecting and given incoming fluxes (vacuum and reflecting for quarters and factors); fluxes with diamond, step and step characteristic schemes where the coupling of the groups is weaker than the collisions; factors with the schemes of C134; one and two dimensions", "why_tests_cant": "tests run single problems with reflecting sides and compare with stored numbers; that a mirror never differs from the missing half is a statement about all pairs of problems, and involves the pairing of octants, the order of sweeps and lagged reflected fluxes at once", "anchors": ["src/boundary/Reflective.i.hh: update", "src/boundary/BoundarySN.i.hh: update", "src/angle/Quadrature.cc: Quadrature, d_octant_sign, d_incident_octants, d_outgoing_octants", "src/transport/Sweeper1D.i.hh: sweep", "src/transport/Sweeper2D.i.hh: sweep", "src/transport/Sweeper.cc: setup_octant_indices", "src/transport/Equation_DD_1D.i.hh: solve", "src/transport/Equation_SD_1D.i.hh: solve", "src/transport/Equation_SC_1D.i.hh: solve", "src/transport/Equation_DD_2D.i.hh: solve", "src/transport/Equation_SD_2D.i.hh: solve", "src/transport/Equation_SC_2D.i.hh: solve", "src/solvers/mg/MGSolverGS.i.hh: solve", "src/solvers/eigen/EigenPI.i.hh: solve"]}
{"id": "C141", "title": "A direction along which nothing changes can be left out", "statement": "A rectangle whose materials, sources and incoming fluxes do not change along the second axis, with mirrors at both ends of it, has with diamond and step differencing the fluxes and modes of the slab with the same cosines; so has a block uniform along the third axis, with diamond differencing, those of the rectangle. So neither the mesh, nor the extent, nor the cosines along that axis have any influence on the fluxes, and these do not vary along it. With step characteristics in two dimensions the flux of such a rectangle does depend on the mesh along the uniform axis.", "quantifier": "all meshes, materials, sources, numbers of groups, quadratures of the larger problem whose cosines and weights project on those of the smaller one; vacuum, reflecting and given sides across the axis; groups coupled more weakly than they collide where uniqueness is used; a concrete column for step characteristics", "why_tests_cant": "a test compares one two-dimensional run with one slab to a tolerance; that no mesh along the uniform axis changes anything, and that a scheme violates this, are statements over all meshes", "anchors": ["src/transport/Equation_DD_2D.i.hh: solve", "src/transport/Equation_SD_2D.i.hh: solve", "src/transport/Equation_SC_2D.i.hh: solve", "src/transport/Equation_DD_3D.i.hh: solve", "src/transport/Equation_DD_1D.i.hh: solve", "src/transport/Equation_SD_1D.i.hh: solve", "src/boundary/Reflective.i.hh: update", "src/transport/Sweeper2D.i.hh: sweep", "src/transport/Sweeper3D.i.hh: sweep"]}
{"id": "C142", "title": "Transients converge at the order of the scheme as the step is refined", "statement": "If the time-dependent equations (flux and precursors, the precursors in equilibrium at first) have a smooth solution on an interval, then the transients computed with smaller and smaller steps approach it on the whole interval: the error of fluxes, stored angular fluxes and precursor concentrations is at most a constant times the power of the step the scheme is named after (two for the implicit midpoint rule, one to six for the backward differences), plus what the multigroup solver leaves divided by the step.", "quantifier": "all systems of groups, cells, directions and precursor groups in transport with stored angular fluxes and in diffusion, any bounded streaming operator, bounded time-dependent materials, sources and smooth solutions, all seven schemes, with and without extrapolation, all step sizes below a bound, solvers with a residual bound, convergence tests and pass limits", "why_tests_cant": "a rate of convergence is a statement about the limit of ever smaller steps; the one test with numbers takes at most six steps of each scheme at one step size and compares with the same recurrence worked out by hand, so it cannot see the order lost in the first steps", "anchors": ["src/solvers/time/TimeStepper.cc: solve, step, extrapolate, update_precursors", "src/solvers/time/TimeStepper.hh: TIME_SCHEMES", "src/kinetics/BDFCoefficients.hh: bdf_coefs", "src/kinetics/TimeDependentMaterial.cc: update", "src/kinetics/SyntheticMomentSource.i.hh: build", "src/kinetics/SyntheticDiscreteSource.i.hh: build"]}
{"id": "C143", "title": "Power iteration with inexact multigroup solves stops near the fundamental factor", "statement": "If every multigroup solve of a run returns fluxes off by no more than some absolute error from those of its fission source, however they were found and however differently from solve to solve, power iteration without relaxation keeps the density positive in every fissile cell once the error is small. The estimates and normalised densities come within a fixed multiple of that error of the fundamental factor and density, at a geometric rate. Whenever the stopping test passes the stored eigenvalue is within a fixed multiple of the tolerance plus that of the error. With solves accurate to a fixed fraction of the outer tolerance the run stops without its warning within a fixed multiple of the tolerance of the factor, from any start. Gauss-Seidel over the groups with a tolerance that is a fixed fraction of the outer one is such a solver, whatever the tolerance and the number of passes within the groups. Nothing less will do: with solves that are off by a fixed relative bias the run stops without a warning at a factor that is off by about that bias however small the outer tolerance.", "quantifier": "all starting fluxes, outer tolerances below a bound that the problem gives, iteration limits beyond a number that the problem and tolerance give, sequences of inexact solves, problems of C133 with a fissile cell of positive yield, forward and adjoint; Gauss-Seidel with any inner tolerance and pass limit, cut-off group and start of the sides, for groups coupled less than they collide, open sides, schemes as in C129 and C133", "why_tests_cant": "a test runs one problem with one set of tolerances, usually tight ones; what loose inner solves do to the stored factor is a statement about all sequences of inner errors", "anchors": ["src/solvers/eigen/EigenPI.i.hh: solve", "src/solvers/eigen/EigenPI.cc: EigenPI", "src/transport/FissionSource.i.hh: update, setup_outer, density", "src/transport/FissionSource.cc: initialize", "src/solvers/mg/MGSolverGS.i.hh: solve", "src/solvers/mg/MGSolverGS.cc: MGSolverGS", "src/solvers/wg/WGSolverSI.i.hh: solve", "src/utilities/MathUtilities.hh: norm, norm_residual"]}
{"id": "C144", "title": "Matrices, operators and vectors written for MATLAB read back", "statement": "A matrix written with print_matlab and read again as lines of row, column and value, values at one place being summed, is the matrix that multiply applies: at each place stands the sum of what the insertions put there, row numbers run from one to the number of rows, and nothing else is in the file. A full matrix lists each of its entries once. A matrix-free operator is written as the matrix whose product with any vector is what the operator returns. A vector is written as its entries in order.", "quantifier": "all sparse matrices with columns in range, in particular after any history of single insertions and assembly; all full matrices after any history of insertions and clearings in range; all operators that are linear; all vectors; all ways of writing numbers that can be read back", "why_tests_cant": "the tests write such files but read none of them; a file that is wrong for one pattern of entries, for wide or tall operators or for values of some magnitude is a statement about all of them", "anchors": ["src/callow/matrix/Matrix.cc: print_matlab", "src/callow/matrix/MatrixDense.cc: print_matlab", "src/callow/matrix/MatrixShell.cc: print_matlab", "src/callow/vector/Vector.cc: print_matlab"]}
{"id": "C145", "title": "More absorption raises no flux and no multiplication factor", "statement": "If total cross sections go up while scattering, fission and sources stay, no scalar flux goes up anywhere and the fundamental multiplication factor does not go up; also together with less scattering, fission or source, and with a mirror replaced by an open side. Diamond differencing needs cells no thicker than twice the cosine: behind a thicker cell more absorption can raise the flux.", "quantifier": "all pairs of problems with the same mesh, quadrature and scheme in each cell; all numbers of groups, nonnegative coupling weaker than the collisions, nonnegative sources and fission data, quadratures with normalised weights, vacuum and reflecting sides (incident flux as well for given sources); step differencing and step characteristics in one and two dimensions mixed by cell, diamond differencing in one dimension in thin cells; mesh-centred diffusion in one to three dimensions with unchanged diffusion coefficients", "why_tests_cant": "a test compares two computed fluxes; that no increase of any total anywhere raises any flux is a statement over all pairs of problems, and for the characteristic schemes rests on how averages of decaying exponentials depend on the decay", "anchors": ["src/transport/Equation_DD_1D.i.hh: solve", "src/transport/Equation_SD_1D.i.hh: solve", "src/transport/Equation_SC_1D.i.hh: solve", "src/transport/Equation_SD_2D.i.hh: solve", "src/transport/Equation_SC_2D.i.hh: solve", "src/solvers/wg/WGSolverSI.i.hh: solve", "src/solvers/mg/MGSolverGS.i.hh: solve", "src/solvers/eigen/EigenPI.i.hh: solve", "src/solvers/mg/DiffusionLossOperator.cc: build", "src/solvers/mg/MGDiffusionSolver.cc: solve"]}
{"id": "C146", "title": "Diffusion: symmetric, repeated and uniform problems have the fluxes of their part", "statement": "The diffusion fluxes, outgoing currents and fundamental multiplication factor of a problem are those of a smaller or turned one it lies over: of the same problem seen in a mirror or with its axes exchanged in any way; of its half, quarter or eighth with reflecting sides in the middle if it is symmetric; of one cell of a lattice in which that cell is laid down again and again, every other time reversed, between reflecting sides; and of the problem with one dimension less if nothing changes along an axis with reflecting ends. A solution of the part, spread out, solves the whole; a mode of the part is a mode of the whole with the same factor.", "quantifier": "all meshes, materials, sources, incident currents, numbers of groups and combinations of these along the three axes, forward and adjoint; vacuum (with or without incident current) and reflecting sides; groups coupled less than they collide where uniqueness is used", "why_tests_cant": "tests solve one problem at a time and compare with stored numbers; that a reflecting side always does what the missing part would, in every direction and corner, is a statement about all pairs of problems", "anchors": ["src/solvers/mg/DiffusionLossOperator.cc: DiffusionLossOperator, build", "src/solvers/mg/MGDiffusionSolver.cc: build_volume_source, build_boundary_source, fill_boundary, solve", "src/solvers/mg/DiffusionGainOperator.cc: build", "src/solvers/eigen/EigenPI.i.hh: solve"]}
{"id": "C147", "title": "Adjoint fluxes are importances, and with them perturbation theory gives the change of the multiplication factor", "statement": "The response of a detector, the integral of the forward diffusion flux with the detector's cross section, is the integral of the adjoint flux of that detector with the forward sources and incident currents. Forward and adjoint modes with different factors are orthogonal with the births as weight, and non-negative ones that meet in a fissile cell have the same factor. If materials, their arrangement or the albedos are changed, the change of reactivity 1/k0 - 1/k1 times the importance of the births is exactly the importance of the births gained (over k0), less that of leakage and collisions gained, plus that of scattering gained, with the old adjoint and the new forward flux; with any other forward flux the error is the change of the operators applied to the error of the flux. More collisions, less scattering and fewer births lower the factor. The same holds in discrete ordinates with diamond and step differencing, where collisions gained are weighted with the product of the angular fluxes of the two modes in opposite directions.", "quantifier": "all meshes, materials, changes of materials, arrangements and albedos, numbers of groups, detectors, sources and incident currents; in transport all quadratures, vacuum and reflecting sides, 1-D and 2-D with diamond or step differencing, 3-D with diamond differencing", "why_tests_cant": "tests solve forward and adjoint problems apart and compare each with stored numbers; an identity between two solutions of two problems, for all pairs of them, is not something single runs can show", "anchors": ["src/solvers/mg/DiffusionLossOperator.cc: DiffusionLossOperator, build", "src/solvers/mg/DiffusionGainOperator.cc: build", "src/solvers/mg/MGDiffusionSolver.cc: build_volume_source, build_boundary_source, solve", "src/solvers/eigen/EigenPI.i.hh: solve", "src/transport/Equation_DD_1D.i.hh: solve", "src/transport/Equation_SD_2D.i.hh: solve", "src/transport/ScatterSource.i.hh: build_within_group_source"]}
{"id": "C148", "title": "Homogenised few-group constants keep the multiplication factor of the cell they were made from", "statement": "Take a mode of any arrangement of materials between reflecting sides, from transport or from diffusion, and let homogenize make constants of it for one region and any coarse groups. Then any domain between reflecting sides filled with these constants, on any mesh, in transport with any quadrature and scheme or in diffusion with any diffusion coefficients, has a mode with the same multiplication factor, and its fluxes are the integrated fluxes of the cell; with given sources the balance over the cell carries over likewise.", "quantifier": "all meshes, materials and arrangements, numbers of groups, coarse groups covering all groups, fluxes (of any mode), multiplication factors; transport cells in one and two dimensions with any scheme, in three with diamond differencing, mesh-centred diffusion in one to three dimensions; all filled domains", "why_tests_cant": "the test homogenises with given fluxes and compares a few constants with stored numbers; that the constants reproduce the problem they stand for relates two calculations for all cells", "anchors": ["src/transport/Homogenize.cc: homogenize", "src/transport/Homogenize.hh: Homogenize", "src/material/Material.cc: finalize", "src/solvers/eigen/EigenPI.i.hh: solve", "src/solvers/mg/DiffusionLossOperator.cc: build", "src/transport/Equation_DD_1D.i.hh: solve"]}
{"id": "C149", "title": "A group determines its fluxes at the sides of the domain, and how many mirrors leave them open", "statement": "In a group that scatters less than it collides the angular fluxes in all cells and the fluxes of all directions at all sides, entering and leaving, are determined by sources, materials and side conditions, with diamond differencing as with the other schemes; so the boundary a solver hands out does not depend on the solver or on what the boundary held before.", "quantifier": "all meshes, materials, sources, positive quadratures, side conditions but periodic; slabs with diamond, step and characteristic differencing, rectangles with diamond, step and characteristic differencing, boxes with diamond differencing; all pairs of solutions", "why_tests_cant": "tests compare scalar fluxes with stored numbers; whether a second set of boundary fluxes satisfies the same equations is a statement about all solutions of all problems", "anchors": ["src/boundary/BoundarySN.hh: BoundarySN", "src/boundary/Reflective.i.hh: update", "src/boundary/Reflective.hh: Reflective", "src/transport/Equation_DD_2D.i.hh: solve", "src/transport/Equation_DD_3D.i.hh: solve", "src/transport/Equation_DD_1D.i.hh: solve", "src/transport/Equation_SD_2D.i.hh: solve", "src/transport/Equation_SC_2D.i.hh: solve", "src/solvers/FixedSourceManager.hh: boundary", "src/solvers/wg/WGSolverSI.i.hh: solve"]}
{"id": "C150", "title": "The linear system of a group has exactly one solution, and which mirrors make it singular", "statement": "In a group that scatters less than it collides, the operator given to the Krylov solver takes exactly one vector of cell fluxes and reflected fluxes to every right-hand side, whatever earlier sweeps have left behind; so what is known of GMRES for nonsingular systems holds for group solves.", "quantifier": "all meshes, materials, positive quadratures, side conditions but periodic, right-hand sides and states; slabs with diamond, step and characteristic differencing, rectangles with diamond, step and characteristic differencing, boxes with diamond differencing", "why_tests_cant": "a test solves some systems for some right-hand sides and compares scalar fluxes; that no vector is taken to zero, for all meshes and materials, is not seen from them, and null vectors do not show in scalar fluxes", "anchors": ["src/solvers/wg/WGTransportOperator.cc: multiply", "src/solvers/wg/WGTransportOperator.hh: WGTransportOperator", "src/solvers/wg/WGSolverGMRES.i.hh: solve", "src/boundary/Reflective.i.hh: update", "src/boundary/BoundarySN.i.hh: psi", "src/transport/Equation_DD_2D.i.hh: solve", "src/transport/Equation_DD_3D.i.hh: solve", "src/transport/Equation_SD_2D.i.hh: solve", "src/transport/Equation_SC_2D.i.hh: solve", "src/transport/Equation_DD_1D.i.hh: solve"]}
{"id": "C151", "title": "The linear system of coupled groups has exactly one solution, and which mirrors make it singular", "statement": "If the groups are coupled less strongly than they collide, the operator given to the multigroup Krylov solver for the groups from the upscatter cut-off on takes exactly one vector of cell fluxes and reflected fluxes of these groups to every right-hand side, whatever the fluxes of the other groups and whatever earlier sweeps have left behind.", "quantifier": "all meshes, materials, numbers of groups and cut-offs, scattering up and down and fission inside the operator when all groups are solved together, forward and adjoint, positive quadratures, side conditions but periodic, right-hand sides and states; slabs with diamond, step and characteristic differencing, rectangles with diamond, step and characteristic differencing, boxes with diamond differencing", "why_tests_cant": "a test solves one multigroup problem with one source and compares scalar fluxes; that no vector over all groups is taken to zero, for all meshes and materials, is not seen from it, and null vectors do not show in scalar fluxes", "anchors": ["src/solvers/mg/MGTransportOperator.cc: multiply, MGTransportOperator", "src/solvers/mg/MGTransportOperator.hh: MGTransportOperator", "src/solvers/mg/MGSolverGMRES.cc: MGSolverGMRES", "src/solvers/mg/MGSolverGMRES.i.hh: solve", "src/boundary/Reflective.i.hh: update", "src/transport/Equation_DD_2D.i.hh: solve", "src/transport/Equation_DD_3D.i.hh: solve", "src/transport/Equation_SD_2D.i.hh: solve", "src/transport/Equation_SC_2D.i.hh: solve", "src/transport/Equation_DD_1D.i.hh: solve"]}
{"id": "C152", "title": "GMRES run on a group, or on coupled groups, ends with their fluxes", "statement": "Whenever the system of a group (or of coupled groups from the upscatter cut-off on) has exactly one solution, the restarted GMRES solver given the transport operator, with no preconditioner or any linear nonsingular one on either side, ends without dividing by zero and without reporting divergence, for every source, tolerance, limit, restart and starting vector and whatever earlier sweeps and solves have left; if it reports success, the cell fluxes differ from those of the transport equation by at most the tolerance times a factor that does not depend on sources, tolerances or starting vector; and it reports success within as many inner iterations as the vectors have entries if it is allowed that many without restart.", "quantifier": "all meshes, materials, positive quadratures, sources, side conditions but periodic, states, tolerances, limits, restarts and starting vectors; slabs with diamond, step and characteristic differencing, rectangles with step and characteristic differencing and with diamond differencing if a side does not reflect, boxes with diamond differencing if sides across two directions do not; uncollided reflection settled when the right-hand side is built", "why_tests_cant": "a test runs the solver on a few problems and compares fluxes; that it cannot break down, and how far its fluxes can be off when it reports success, is a statement about all problems and all tolerances", "anchors": ["src/callow/solver/GMRES.cc: solve_impl", "src/callow/solver/LinearSolver.cc: solve", "src/callow/vector/Vector.i.hh: dot", "src/solvers/wg/WGTransportOperator.cc: multiply", "src/solvers/wg/WGSolverGMRES.cc: WGSolverGMRES", "src/solvers/wg/WGSolverGMRES.i.hh: solve", "src/solvers/mg/MGTransportOperator.cc: multiply", "src/solvers/mg/MGSolverGMRES.cc: MGSolverGMRES", "src/solvers/mg/MGSolverGMRES.i.hh: solve"]}
{"id": "C153", "title": "Without preconditioner GMRES finds the cell fluxes also where mirrors make the system singular", "statement": "Between facing mirrors the system of a group (or of coupled groups) may have many solutions, which differ in the boundary entries only (C150, C151). Restarted GMRES without preconditioner still ends on it, without dividing by zero and without reporting divergence, for every source, tolerance, limit, restart and starting vector and whatever earlier sweeps have left; if it reports success, the cell fluxes differ from those of the transport equation by at most a fixed factor times the tolerance plus the amount by which reflection of the uncollided fluxes was still off when the right-hand side was built; and it reports success within as many inner iterations as the vectors have entries if it is allowed that many without restart.", "quantifier": "all groups that scatter less than they collide, all sides but periodic, sources, states, tolerances, limits, restarts and starting vectors; every discretisation that loses what it collides, in particular diamond differencing on rectangles and in boxes whatever their sides do, in one group or coupled groups", "why_tests_cant": "GMRES may break down or stagnate on a singular system, and which right-hand sides are harmless depends on how null space and range of the operator lie; test problems with mirrors on all sides that happen to converge do not show that others do", "anchors": ["src/callow/solver/GMRES.cc: solve_impl", "src/callow/solver/LinearSolver.cc: solve", "src/solvers/wg/WGTransportOperator.cc: multiply", "src/solvers/wg/WGSolverGMRES.i.hh: solve, build_rhs", "src/solvers/mg/MGTransportOperator.cc: multiply", "src/solvers/mg/MGSolverGMRES.i.hh: solve, build_rhs", "src/boundary/Reflective.i.hh: update"]}
{"id": "C154", "title": "Coupled groups determine their fluxes at the sides of the domain, and how many mirrors leave them open", "statement": "If the groups are coupled less strongly than they collide, the fluxes of all groups in the cells and the angular fluxes of all groups and directions at all sides, entering and leaving, are determined by sources, materials and side conditions, with diamond differencing as with the other schemes; so the boundary a multigroup solver hands out does not depend on the solver or on what the boundary held before.", "quantifier": "all meshes, materials, numbers of groups, scattering up and down and fission inside the system, positive quadratures, side conditions but periodic; slabs with diamond, step and characteristic differencing, rectangles with diamond, step and characteristic differencing, boxes with diamond differencing; all pairs of solutions", "why_tests_cant": "tests compare scalar fluxes of a few multigroup problems with stored numbers; whether a second set of boundary fluxes satisfies the same equations in all groups is a statement about all solutions of all problems", "anchors": ["src/solvers/mg/MGSolverGMRES.i.hh: solve", "src/solvers/mg/MGTransportOperator.cc: multiply", "src/boundary/BoundarySN.hh: BoundarySN", "src/boundary/Reflective.i.hh: update", "src/solvers/FixedSourceManager.hh: boundary", "src/transport/Equation_DD_2D.i.hh: solve", "src/transport/Equation_DD_3D.i.hh: solve", "src/transport/Equation_SD_2D.i.hh: solve", "src/transport/Equation_SC_2D.i.hh: solve", "src/transport/Equation_DD_1D.i.hh: solve"]}
{"id": "C155", "title": "GMRES run on a diffusion problem ends with its fluxes", "statement": "In a multigroup diffusion problem in which the groups are coupled less strongly than they collide, restarted GMRES given the assembled diffusion operator, with no preconditioner or any linear nonsingular one on either side (in particular the Jacobi preconditioner), ends without dividing by zero and without reporting divergence, for every source in the cells and current sent in at the sides, tolerance, limit, restart, starting vector and whatever earlier solves have left; if it reports success, all fluxes differ from those of the diffusion equations by at most the tolerance times a factor that does not depend on sources, tolerances or starting vector; and it reports success within as many inner iterations as there are unknowns if it is allowed that many without restart.", "quantifier": "all meshes in one to three dimensions, materials, numbers of groups, scattering up and down and fission inside the operator or outside, forward and adjoint, open and reflecting sides, sources, tolerances, limits, restarts, starting vectors and preconditioners", "why_tests_cant": "a test solves a few problems and compares fluxes; that the solver cannot break down, and how far its fluxes can be off when it reports success, is a statement about all problems and all tolerances", "anchors": ["src/solvers/mg/MGDiffusionSolver.cc: solve, MGDiffusionSolver", "src/solvers/mg/DiffusionLossOperator.cc: build", "src/callow/solver/GMRES.cc: solve_impl", "src/callow/solver/LinearSolver.cc: solve", "src/callow/preconditioner/PCJacobi.cc: PCJacobi", "src/callow/preconditioner/PCJacobi.i.hh: apply"]}
{"id": "C156", "title": "Jacobi and Gauss-Seidel solve every diagonally dominant system", "statement": "For a sparse matrix whose diagonal outweighs the rest of each row, possibly after weighting the unknowns, by a factor 1/rho, a sweep of Jacobi or Gauss-Seidel iteration with relaxation factor omega reduces the distance from the solution by at least the factor |omega| rho + |1 - omega|. If that factor is below one there is a constant, the same for all right-hand sides, starting vectors, tolerances and limits, such that a solve that reports success has every entry within that constant times the tolerance of the solution, whether the residual or the difference of successive iterates is monitored and in whichever absolute norm; and unless divergence is watched for, every solve with positive absolute tolerance allowed enough iterations reports success. Every assembled square matrix in which no column of a row was inserted twice is of the form these solvers rely on, and the assembled multigroup diffusion operator of a problem whose groups are coupled less strongly than they collide is dominated by its diagonal, so all this holds for it with every relaxation factor above zero and up to one.", "quantifier": "all well-formed sparse matrices with dominant diagonal, weights, relaxation factors, right-hand sides, starting vectors, contents of the work vector, tolerances, limits, both monitored quantities and the three absolute norms", "why_tests_cant": "a test solves one small system; that no dominant system, starting vector or tolerance makes the solver stall or report success far from the solution is a statement about infinitely many solves", "anchors": ["src/callow/solver/Jacobi.i.hh: solve_impl", "src/callow/solver/GaussSeidel.i.hh: solve_impl", "src/callow/solver/LinearSolver.cc: monitor, monitor_init", "src/callow/vector/Vector.i.hh: norm_residual", "src/callow/matrix/Matrix.cc: assemble", "src/solvers/mg/DiffusionLossOperator.cc: build"]}
{"id": "C157", "title": "Jacobi and Gauss-Seidel keep fluxes non-negative and enclose the solution", "statement": "For matrices that are positive on the diagonal and nowhere positive off it, a sweep of Jacobi or Gauss-Seidel iteration with relaxation factor between zero and one is monotone: larger sources and larger iterates give larger iterates; an iterate below (above) the solution stays below (above) it; without negative sources no iterate becomes negative; an iterate whose residual is nowhere positive is raised in every element by every sweep, one whose residual is nowhere negative is lowered. If the diagonal dominates, two such solves enclose the solution after any number of sweeps. All this holds for the assembled multigroup diffusion operator of problems whose groups are coupled less strongly than they collide: no flux of any iterate is negative, and started from zero the fluxes rise with every sweep and never above the solution.", "quantifier": "all well-formed sparse matrices of these signs, relaxation factors from zero to one, right-hand sides, iterates, contents of the work vector and numbers of sweeps; all meshes, materials, groups and sides of diffusion problems", "why_tests_cant": "a test looks at the converged flux of a few problems; that no intermediate flux of any problem is negative or overshoots is a statement about all iterates of all solves", "anchors": ["src/callow/solver/Jacobi.i.hh: solve_impl", "src/callow/solver/GaussSeidel.i.hh: solve_impl", "src/solvers/mg/DiffusionLossOperator.cc: build"]}
{"id": "C158", "title": "Richardson iteration that reports success has solved the system", "statement": "On a system whose matrix has a positive and dominating diagonal, Richardson iteration that reports success returns a vector whose distance from the solution is at most a fixed multiple of the convergence threshold, the multiple depending on the matrix, the relaxation factor and the norm only, not on the right-hand side, the starting vector or the tolerances. This holds without preconditioner (with a relaxation factor that does not exceed the inverse of any diagonal element) and with the Jacobi preconditioner on the left.", "quantifier": "all well-formed sparse matrices with positive and dominating diagonal, relaxation factors, norms, right-hand sides, starting vectors, tolerances and iteration limits", "why_tests_cant": "tests solve a few systems from zero; a success reported for a wrong starting vector occurs only for starting vectors no test uses, and the bound on the error is a statement about all of them", "anchors": ["src/callow/solver/Richardson.i.hh: solve_impl", "src/callow/solver/LinearSolver.hh: set_preconditioner", "src/callow/preconditioner/PCJacobi.i.hh: apply"]}
