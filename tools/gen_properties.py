#!/usr/bin/env python3
"""Writes /verif/properties.jsonl.  One tuple per property."""
import json, os
P = []
def p(id, title, statement, quantifier, why, *anchors):
    P.append(dict(id=id, title=title, statement=statement, quantifier=quantifier,
                  why_tests_cant=why, anchors=list(anchors)))

PC='InterPhon/core/pre_check.py'; POC='InterPhon/core/post_check.py'; UC='InterPhon/core/unit_cell.py'
SC='InterPhon/core/super_cell.py'; PRE='InterPhon/core/pre_process.py'; POST='InterPhon/core/post_process.py'
KP='InterPhon/util/k_points.py'; LT='InterPhon/util/linear_tetrahedron_method.py'; SY='InterPhon/util/symmetry.py'
AW='InterPhon/util/atomic_weight.py'; VA='InterPhon/inout/vasp.py'; ES='InterPhon/inout/espresso.py'; AI='InterPhon/inout/aims.py'
DO='InterPhon/analysis/dos.py'; BA='InterPhon/analysis/band.py'; TH='InterPhon/analysis/thermal_properties.py'; MO='InterPhon/analysis/mode.py'
CLI='InterPhon/interphon.py'

# ---------------------------------------------------------------- arguments
p('C01','Accepted arguments are consistent',
  'If set_user_argument(d) followed by check_user_argument() completes without an exception, then enlargement and periodicity each have exactly three entries and every direction with periodicity false has enlargement 1.',
  'every argument dictionary (any keys, any order, any repetition, any string/int/list values) and every earlier state of the argument object',
  'The dictionary, its order and the value strings are unbounded; setters only validate against whatever was stored before, so consistency depends on the order.',
  PC+':PreArgument.set_user_argument',PC+':PreArgument.check_user_argument',PC+':PreArgument.periodicity')
p('C02','check_user_argument decides consistency exactly',
  'check_user_argument() returns normally exactly on the consistent argument objects (three enlargements, three periodicities, non-periodic implies enlargement 1); on a stored pair that is not consistent it raises, with Insufficient_ENLARGE for a wrong enlargement length, else Insufficient_PBC for a wrong periodicity length, else Mismatch_ENLARGE_and_PBC.',
  'every argument object, including ones built by the constructor with arbitrary arrays',
  'An iff over unbounded integer vectors of any length; tests see a handful of triples.',
  PC+':PreArgument.check_user_argument')
p('C03','Rejected values are never stored',
  'A setter that raises leaves the argument object unchanged, and in no history of setter calls does the stored displacement become negative, nor does the stored enlargement or periodicity get a length other than three.',
  'every sequence of displacement/enlargement/periodicity assignments and set_user_argument calls, with failures caught and execution continued',
  'Histories are unbounded and include continuing after an exception.',
  PC+':PreArgument.displacement',PC+':PreArgument.enlargement',PC+':PreArgument.periodicity')
p('C04','Argument order inside the dictionary does not matter',
  'For dictionaries carrying one displacement, one enlargement and one periodicity entry, all orders in which enlargement precedes periodicity give the same stored arguments or the same failure; an order with periodicity first gives the same result whenever every direction is periodic.',
  'every triple of values and every permutation of the three entries',
  'Order-independence over all value strings.',
  PC+':PreArgument.set_user_argument')
p('C05','Accepted enlargement factors are positive',
  'If the arguments are accepted, then every enlargement factor is at least 1.',
  'every argument dictionary',
  'Universal over integers; the test-suite only tries positive factors.',
  PC+':PreArgument.enlargement',PC+':PreArgument.check_user_argument')
# ---------------------------------------------------------------- super cell
p('C06','Super cell atoms are exact lattice translates of unit cell atoms',
  'After set_super_cell, atom number E*i+k of the super cell (E = number of images) sits at the position of unit-cell atom i plus x*a1+y*a2+z*a3, where (x,y,z) is the k-th integer vector of the box 0<=x<n1, 0<=y<n2, 0<=z<n3 in lexicographic order; in particular the first image of every atom is the atom itself.',
  'every unit cell (any lattice, any number of atoms, any positions) and every accepted argument object with positive enlargement',
  'Positions, lattice and enlargement are unbounded.',
  SC+':SuperCell.set_super_cell')
p('C07','Super cell has E copies of every atom with the same type',
  'The super cell has E*N atoms where E is the product of the enlargement factors; atom E*i+k has the type of unit-cell atom i; the per-type counts are multiplied by E; each lattice vector is multiplied by its enlargement factor.',
  'every unit cell and every accepted argument object with positive enlargement',
  'Unbounded sizes.',
  SC+':SuperCell.set_super_cell')
p('C08','Every translation is used exactly once and images are distinct',
  'For each unit-cell atom, every integer translation in the enlargement box is produced exactly once, and if the lattice is non-singular the images of one atom are pairwise distinct points; two different atoms that are not lattice-equivalent never coincide in the super cell.',
  'every non-singular lattice, every atom list, every enlargement',
  'Injectivity over an unbounded family.',
  SC+':SuperCell.set_super_cell')
p('C09','Selected super cell atoms are exactly the images of the selected unit cell atoms',
  'After set_super_ind_true, the super cell atom list of selected atoms contains s iff s // E is a selected unit-cell atom, without duplicates and in increasing order, and the degree-of-freedom list repeats each selected atom three times.',
  'every selection and every E >= 1',
  'Unbounded index sets.',
  SC+':SuperCell.set_super_ind_true')
p('C10','The post-process check accepts the super cell built from the same arguments and rejects clearly different ones',
  'check_match_argument never raises on the super cell built by set_super_cell with the same arguments; and it raises Mismatch_ENLARGE_post whenever some lattice-vector component of unit*enlargement differs from the super cell component by more than 1e-8 + 1e-5*|component|, and only then.',
  'every unit cell and every argument object',
  'Universal over real matrices, tolerance boundary.',
  POC+':PostArgument.check_match_argument')
# ---------------------------------------------------------------- unit cell
p('C11','A unit cell object never holds arrays of contradictory shapes',
  'In every history of attribute assignments starting from an empty cell: lattice_matrix is 3x3, atom_type has one entry per row of atom_cart whenever both are set, selected atoms are sorted distinct valid indices, each atom_cart row has 3 entries, and num_atom adds up to the number of atoms.',
  'every sequence of assignments (with failures caught) on an empty cell',
  'Order of assignments matters because each setter validates only against what is already set.',
  UC+':UnitCell.atom_type',UC+':UnitCell.atom_cart',UC+':UnitCell.num_atom',UC+':UnitCell.atom_true')
p('C12','Direct and Cartesian coordinates are inverse views',
  'With a non-singular lattice, assigning atom_direct and reading atom_direct gives the assigned values, and assigning atom_cart := what atom_direct describes changes nothing; the Cartesian value stored for a direct row (x,y,z) is x*a1+y*a2+z*a3.',
  'every non-singular lattice and every coordinate list',
  'Universal over matrices.',
  UC+':UnitCell.atom_direct')
p('C13','Reading a structure forgets the previous content',
  'The state of a unit cell after read_unit_cell depends only on the file and code name, not on what the object held before; when code_name names none of the three supported codes the object ends up empty.',
  'every earlier state, every file content',
  'History independence.',
  UC+':UnitCell.read_unit_cell',UC+':UnitCell.initialization')
p('C14','Dynamical masses follow the selected atoms',
  'set_mass_true stores, for the k-th selected degree of freedom, the tabulated weight of its atom type in kg; all three directions of an atom carry the same positive mass, and an unknown element raises instead of storing.',
  'every atom-type list and selection',
  'Universal over lists of types.',
  UC+':UnitCell.set_mass_true',AW+':atomic_weight')
# ---------------------------------------------------------------- displacement
p('C15','Each displaced super cell moves exactly one atom by the requested distance',
  'Without symmetry, write_displace_cell writes 6 files per selected atom; file 6i+2j+1 (6i+2j+2) equals the pristine super cell except that the home image of the i-th selected atom is moved by +d (-d) along Cartesian axis j.',
  'every unit cell, selection, enlargement and amplitude',
  'Loop with in-place updates of one shared array over unboundedly many files.',
  PRE+':PreProcess.write_displace_cell')
p('C16','Displacement file names are complete, distinct and sort in calculation order',
  'The numeric suffixes of the written files are 1,2,...,6n, each once; formatted names are pairwise distinct; and sorting the names alphabetically (what the command line does) recovers the numeric order.',
  'every number of files',
  'Fails only beyond 9999 files, which no test generates.',
  PRE+':PreProcess.write_displace_cell',CLI+':main')
p('C17','Writing displaced cells does not change the cells',
  'write_displace_cell leaves the unit cell and super cell it was given as they were, so that calling it twice writes the same files.',
  'every state',
  'Needs comparing complete object states after the call, including aliasing.',
  PRE+':PreProcess.write_displace_cell')
p('C18','Force files in the wrong order are detected',
  'check_file_order accepts the files generated by the pre-process in order, and rejects a list in which file number i is not the i-th generated displaced structure (up to the comparison tolerance).',
  'every structure list and every permutation of it',
  'All permutations of unboundedly many files.',
  CLI+':check_file_order')
# ---------------------------------------------------------------- force constants
p('C19','Exact force constants for a harmonic crystal',
  'If the forces in the i-th file are F0 - Phi*u for the displacement u the pre-process wrote in that file, set_force_constant (sym off) returns exactly Phi restricted to (all super-cell components) x (selected components), whatever the residual forces F0 and the amplitude d > 0.',
  'every force-constant matrix, residual force field, amplitude, number of atoms and selection',
  'End-to-end statement over real matrices of any size.',
  POST+':PostProcess.set_force_constant',PRE+':PreProcess.write_displace_cell')
p('C20','Central differences cancel the second-order error',
  'If the force along a displacement is a polynomial a + b*u + c*u^2 + e*u^3 in the amplitude, the computed entry is -(b + e*d^2) (in SI units): no dependence on a and c, and error exactly e*d^2.',
  'every coefficient and amplitude',
  'Universal over reals.',
  POST+':PostProcess.set_force_constant')
p('C21','Entry layout of the force-constant matrix',
  'Entry (3*s+x, 3*a+y) of the force constant matrix is computed from component x of the force on super-cell atom s in the two files in which the a-th selected atom is moved along y, and from nothing else.',
  'every number of atoms, every force table',
  'A non-interference statement over all inputs.',
  POST+':PostProcess.set_force_constant')
p('C22','Symmetry-reduced force constants equal the full ones',
  'With symmetry on, if the supplied forces are the harmonic forces of a crystal whose force constants are invariant under the recorded symmetry operations, the reconstructed matrix equals the true force-constant matrix on every entry the phonon calculation uses (rows of selected super-cell atoms).',
  'every force-constant matrix covariant under the operations, any number of atoms, any operations whose Cartesian matrices are invertible',
  'Universal over matrices and over symmetry operations.',
  POST+':PostProcess.set_force_constant',SY+':Symmetry2D')
p('C23','Missing or surplus force files do not silently give a result',
  'set_force_constant either receives exactly the number of files the displacement scheme needs or raises.',
  'every number of files',
  'All list lengths.',
  POST+':PostProcess.set_force_constant')
# ---------------------------------------------------------------- phonon
p('C24','Reciprocal lattice is dual to the lattice',
  'The stored reciprocal vectors satisfy b_i . a_j = 2*pi*delta_ij for every non-singular lattice.',
  'every non-singular 3x3 lattice (left- or right-handed)',
  'Universal over real matrices.',
  POST+':PostProcess.set_reciprocal_lattice')
p('C25','Pair separations use a lattice-equivalent, never longer vector',
  'The separation vector used for a pair differs from the plain difference by an integer super-lattice vector with components only along periodic directions, and its length is at most the length of the plain difference and of every one of the 3^p neighbouring images of the plain difference tried first.',
  'every pair of positions, super lattice and periodicity',
  'Greedy in-place loop; universal over positions.',
  POST+':PostProcess.eval_phonon')
p('C26','At commensurate wave vectors the dynamical matrix does not depend on image choice',
  'If q.R is a multiple of 2*pi for each periodic super-lattice vector R, the dynamical matrix equals sum over images of Phi*exp(i q.(r_s - r_u))/sqrt(m m\') with the plain position differences.',
  'every commensurate q, every positions, force constants and masses',
  'Universal over q and structures.',
  POST+':PostProcess.eval_phonon')
p('C27','Time reversal',
  'With real force constants, the dynamical matrix at -q is the entrywise complex conjugate of that at q.',
  'every q, positions, force constants, masses',
  'Universal over q.',
  POST+':PostProcess.eval_phonon')
p('C28','Reciprocal-lattice periodicity',
  'The dynamical matrix at q + G (G a reciprocal lattice vector) is obtained from that at q by a diagonal unitary similarity transformation, so frequencies repeat.',
  'every q, every integer G',
  'Universal.',
  POST+':PostProcess.eval_phonon')
p('C29','Acoustic sum rule gives zero modes at Gamma',
  'If the force constants are translation invariant (for every column, the sum over all atoms of same-direction entries vanishes) and all atoms are selected, the mass-weighted uniform translations are null vectors of the dynamical matrix at Gamma.',
  'every structure and force constants obeying the sum rule',
  'Universal.',
  POST+':PostProcess.eval_phonon')
p('C30','Frequencies are faithful signed square roots in ascending order',
  'Each reported frequency is sqrt(lambda)/(2 pi 1e12) for a nonnegative eigenvalue and -sqrt(-lambda)/(2 pi 1e12) for a negative one, so sign and order of eigenvalues are preserved, no eigenvalue is lost, and the reported list is ascending.',
  'every real eigenvalue list',
  'Universal over real lists.',
  POST+':PostProcess.eval_phonon')
p('C31','Mode vectors stay paired with their frequencies',
  'The m-th reported polarization vector is an eigenvector for the m-th reported frequency.',
  'every eigensystem returned by the solver',
  'Needs eigenvalues in non-ascending order from the solver.',
  POST+':PostProcess.eval_phonon')
p('C32','The dynamical matrix is Hermitian',
  'For symmetric, translation-invariant force constants the dynamical matrix is Hermitian at every q.',
  'every q and every translation-invariant symmetric force constants',
  'Fails only for ties of equidistant images at incommensurate q.',
  POST+':PostProcess.eval_phonon')
# ---------------------------------------------------------------- k points
p('C33','Gamma-centred mesh',
  'gamma_centered returns exactly n1*n2*n3 points ((i+s1)/n1,(j+s2)/n2,(k+s3)/n3), 0<=i<n1 etc. with the third index fastest, non-periodic components 0; with zero shift it contains Gamma as the first point; points are pairwise distinct modulo reciprocal lattice vectors.',
  'every mesh size, shift and periodicity pattern',
  'Eight hand-written branches, unbounded meshes.',
  KP+':gamma_centered')
p('C34','Monkhorst-Pack mesh',
  'monkhorst_pack returns the same mesh displaced by half a step along each periodic direction; for even divisions this is the standard Monkhorst-Pack set up to reciprocal lattice vectors; for odd divisions the standard set contains Gamma.',
  'every mesh size',
  'Parity-dependent property of unbounded meshes.',
  KP+':monkhorst_pack')
p('C35','Meshes along a non-periodic direction are rejected',
  'gamma_centered and monkhorst_pack raise Mismatch_Kpath exactly when a non-periodic direction has a division other than 1 (well-formed file).',
  'every division triple and periodicity',
  'Universal over integers.',
  KP+':gamma_centered',KP+':monkhorst_pack')
p('C36','Line paths',
  'line_path returns, for each pair of listed end points, num equally spaced points including both end points, in order; an odd number of end points raises Invalid_Line_Kpath.',
  'every file content, any number of segments, 1-D or 2-D periodicity',
  'Unbounded lists.',
  KP+':line_path')
p('C37','Line paths never leave the periodic subspace',
  'Every accepted line path has zero components along non-periodic directions at every returned point.',
  'every file content',
  'Needs an end point with a non-zero non-periodic component.',
  KP+':line_path')
p('C38','Line paths work for fully periodic systems',
  'line_path succeeds on every well-formed file when all three directions are periodic.',
  'every file content',
  'Depends on the type of an empty index array.',
  KP+':line_path')
p('C39','Unknown k-point mode is reported',
  'set_k_points raises if the third line of the k-point file does not start with one of G, M, L, R (either case).',
  'every file content',
  'All strings.',
  POST+':PostProcess.set_k_points')
# ---------------------------------------------------------------- tetrahedron / DOS
p('C40','Tetrahedron weights are a partition of unity',
  'Inside every branch of the linear interpolation in 1, 2 and 3 dimensions, the vertex weights add up to 1 (wherever the branch weight is well defined).',
  'every simplex of vertex frequencies (sorted) and every frequency strictly inside',
  'Universal over reals; algebraic identity.',
  LT+':tetrahedron_method')
p('C41','Density contributions are non-negative and vanish outside the band',
  'Each simplex contribution to the DOS is >= 0 at every frequency and zero outside [min, max] of its vertex frequencies.',
  'every simplex and frequency',
  'Universal over reals.',
  LT+':tetrahedron_method')
p('C42','Each non-flat simplex carries unit weight',
  'The integral over frequency of the simplex density g is 1 whenever its vertex frequencies are not all equal, including when two or three of them coincide.',
  'every simplex in 1, 2 and 3 dimensions',
  'An integral over reals with degenerate cases.',
  LT+':tetrahedron_method')
p('C43','The simplices tile the Brillouin-zone cell',
  'The six tetrahedra (two triangles, one segment) attached to a mesh point have equal volume and each mesh point is used with the same total weight, so a constant is integrated exactly; the volume weight used equals the mesh-cell volume.',
  'every mesh size n1,n2,n3',
  'Index arithmetic modulo arbitrary mesh sizes.',
  LT+':tetrahedron_method')
p('C44','Total DOS is the sum of the projected DOS',
  'After DOS.set the total DOS at every frequency equals the sum over degrees of freedom of the projected DOS.',
  'every phonon spectrum, mesh, frequency grid, smearing',
  'Universal.',
  DO+':DOS.set')
p('C45','Projected DOS uses the weight of its own vertex',
  'In each simplex, the weight of a vertex multiplies the squared mode amplitude of that same vertex.',
  'every simplex (any order of vertex frequencies)',
  'Visible only for unsorted vertices with different amplitudes.',
  LT+':tetrahedron_method')
p('C46','Frequency grid',
  'The DOS frequency grid has num_dos equally spaced points, starts 2 THz below the lowest frequency and all points lie below the highest frequency + 2 THz, so that the whole spectrum is covered up to one step.',
  'every spectrum and num_dos >= 1',
  'Universal over reals.',
  DO+':DOS.__init__')
p('C47','Repeating the analysis gives the same result',
  'Calling DOS.set twice leaves the same DOS as calling it once.',
  'every state',
  'History property.',
  DO+':DOS.set')
p('C48','Gaussian DOS is non-negative and has the right normalisation',
  'With smearing, each mode contributes a Gaussian of unit area scaled by its squared amplitude divided by the number of k points; the contribution is non-negative.',
  'every sigma > 0, every spectrum',
  'Universal over reals, an improper integral.',
  DO+':DOS.set')
# ---------------------------------------------------------------- thermal
p('C49','Entropy is minus the temperature derivative of the free energy',
  'For every positive frequency and temperature, the entropy formula used equals -dF/dT of the free-energy formula used.',
  'every frequency > 0 and T > 0',
  'A calculus identity over all reals.',
  TH+':ThermalProperty.set')
p('C50','Signs and monotonicity',
  'For positive frequencies the vibrational entropy is non-negative, the free energy does not exceed the zero-point energy, and the free energy decreases with temperature.',
  'every frequency > 0, T > 0',
  'Universal inequality.',
  TH+':ThermalProperty.set')
p('C51','Zero temperature is handled consistently',
  'With one zero in the temperature list, the result at that position is the zero-point energy and zero entropy, and every other position holds the value for its own temperature; the zero-temperature values are the limits of the formulas.',
  'every temperature list with one zero at any position',
  'Index juggling with delete/insert at an arbitrary position, and a limit.',
  TH+':ThermalProperty.set')
p('C52','Every temperature gets a value',
  'After set, every entry of the free energy and entropy arrays is the value of the formula at its temperature, for every temperature list.',
  'every temperature list, including several zeros',
  'Lists with repeated zeros.',
  TH+':ThermalProperty.set')
p('C53','Imaginary modes do not contribute',
  'Modes with negative (imaginary) frequency contribute nothing to energy and entropy: removing them from every k point leaves the sums unchanged.',
  'every spectrum',
  'Universal over lists.',
  TH+':ThermalProperty.set')
# ---------------------------------------------------------------- mode
p('C54','Animation frames are a closed sinusoidal orbit',
  'The frames written for a mode are position + sin(2 pi n/N) * (mass-scaled real mode); the first frame is the equilibrium structure, and the frames average to the equilibrium structure for N >= 2.',
  'every mode vector, mass list and N >= 1',
  'Universal over N and vectors.',
  MO+':Mode.write')
p('C55','The chosen k point is a listed one that matches',
  'Mode.set selects a k point of the list that matches the requested one within tolerance, and raises Not_Specified_Kpath exactly when none matches.',
  'every k-point list and request',
  'Universal over lists.',
  MO+':Mode.set')
p('C56','Displaced structures of a mode are commensurate',
  'For a rational k point with denominators up to 100 the enlargement chosen by write_mode_displace makes the phase factor periodic over the written super cell.',
  'every rational k point',
  'Number-theoretic universal.',
  MO+':Mode.write_mode_displace')
# ---------------------------------------------------------------- IO
p('C57','POSCAR round trip',
  'Writing a structure in VASP format and reading it back gives the same types, counts, selection and coordinates/lattice equal to the written 16-decimal values.',
  'every structure (any number of atoms and groups)',
  'Parser/printer inverse over unbounded inputs.',
  VA+':read_input_lines',VA+':write_input_lines')
p('C58','Quantum ESPRESSO round trip',
  'Writing a structure in Quantum ESPRESSO format and reading it back gives the same types, the same selected atoms, the lattice and coordinates rounded to 16 decimals, and as counts the lengths of the runs of equal types (the counts of the structure if neighbouring groups differ in type).',
  'every structure of elements of the weight table (any letter case), any number of atoms and groups, any iteration order of the species',
  'Parser/printer inverse over unbounded inputs.',
  ES+':read_input_lines',ES+':write_input_lines')
p('C59','FHI-aims round trip',
  'Writing a structure in FHI-aims format and reading it back gives the same types, the same selected atoms, the lattice and coordinates rounded to 16 decimals, and as counts the lengths of the runs of equal types (the counts of the structure if neighbouring groups differ in type).',
  'every structure of elements of the weight table (any letter case), any number of atoms and groups, any iteration order of the species',
  'Parser/printer inverse over unbounded inputs.',
  AI+':read_input_lines',AI+':write_input_lines')
p('C60','Forces are read completely, in order, with the right unit',
  'For an output file whose force block (first occurrence of the tag) lists one force per atom, the reader returns exactly those numbers in order, multiplied by the unit factor, independent of everything else in the file.',
  'every file content around the block, every number of atoms',
  'Arbitrary surrounding text.',
  VA+':read_output_lines',ES+':read_output_lines',AI+':read_output_lines')
p('C61','Direct and Cartesian input describe the same structure',
  'A POSCAR in direct coordinates and the POSCAR of the same structure in Cartesian coordinates are read into the same cell.',
  'every structure',
  'Universal over coordinates.',
  VA+':read_input_lines')
p('C62','The POSCAR scale factor applies to Cartesian coordinates',
  'Reading a Cartesian POSCAR with scale s gives positions multiplied by s (as VASP defines the format).',
  'every scale and structure',
  'Needs scale different from 1 with Cartesian coordinates.',
  VA+':read_input_lines')
p('C63','Fixed-atom flags',
  'Reading Quantum ESPRESSO input, an atom is fixed exactly when one of its three if_pos flags is 0.',
  'every position line',
  'Needs a coordinate written as the bare token 0.',
  ES+':read_input_lines')
# ---------------------------------------------------------------- weights
p('C64','Atomic weights are found for every element, in any letter case',
  'atomic_weight returns the same positive number for an element symbol or name whatever its letter case, never confuses two elements, and raises for a string that is no entry.',
  'every string',
  'All strings and letter cases.',
  AW+':atomic_weight')
p('C65','Only elements have a weight',
  'atomic_weight raises for every string that is not an element symbol or name of the table.',
  'every string',
  'Needs the header words as input.',
  AW+':atomic_weight')
# ---------------------------------------------------------------- symmetry
p('C66','The candidate operations are all candidate operations',
  'The list of candidate in-plane operations consists of exactly the integer matrices with entries in {-1,0,1} and determinant +1 or -1 acting on the plane, each once, closed under inverse and transpose.',
  'every 2x2 integer matrix',
  'Completeness.',
  SY+':W_candidate')
p('C67','Candidates suffice for reduced cells',
  'For a Lagrange-reduced 2-D cell every integer matrix that preserves the metric is among the candidates.',
  'every reduced positive-definite metric, every integer matrix',
  'Universal over real metrics and integer matrices.',
  SY+':W_candidate',SY+':Symmetry2D.search_point_group')
p('C68','Every accepted in-plane operation is crystallographic',
  'An integer matrix preserving a positive-definite metric has (trace, determinant) in the look-up table and finite order dividing 4 or 6, so classification never meets an unknown operation and the loop over powers terminates.',
  'every positive-definite metric and integer matrix',
  'Universal; termination.',
  SY+':Symmetry2D.search_point_group',SY+':Symmetry2D.search_independent_displacement')
p('C69','Recorded symmetry operations really map the selected atoms onto themselves',
  'If selected atoms of one type are more than 2e-4 (fractional, modulo the lattice) apart, then for every recorded operation (W,w) the map x -> Wx+w sends each selected atom, modulo the lattice and the tolerance, to the selected atom recorded as its image, and the metric is preserved within tolerance.',
  'every structure',
  'Soundness of a nested search with in-place lists.',
  SY+':Symmetry2D.search_point_group')
p('C70','Recorded symmetry operations are symmetries of the whole structure',
  'Every recorded operation maps all atoms, also the fixed ones, onto atoms of the same type.',
  'every structure',
  'Needs a structure whose fixed atoms break the symmetry of the selected ones.',
  SY+':Symmetry2D.search_point_group')
p('C71','All symmetries of the selected atoms are found',
  'If (W,w) with W in the candidate list maps the selected atoms onto themselves and preserves the metric, then W is recorded.',
  'every structure',
  'Completeness of a search.',
  SY+':Symmetry2D.search_point_group')
p('C72','Point-group naming is consistent with the operations',
  'The reported point-group name is determined by the numbers of rotations, mirrors and glides found, every combination that a 2-D point group can have is named, and Cannot_Search_Point_Group is raised otherwise.',
  'every list of recorded operations',
  'Decision logic over all counts.',
  SY+':Symmetry2D.search_point_group')
p('C73','Required and derived atoms partition the selection',
  'search_image_atom splits the selected atoms into required atoms and derived atoms: disjoint, exhaustive, and each derived atom is the image of a required atom under the recorded operation.',
  'every image table',
  'Universal over tables of any size.',
  SY+':Symmetry2D.search_image_atom')
p('C74','The displacements used with symmetry span space',
  'For every required atom the independent displacement directions (with symmetry images) are three linearly independent vectors, so the inversion in set_force_constant succeeds.',
  'every site symmetry group',
  'Pairwise test versus linear independence.',
  SY+':Symmetry2D.search_independent_displacement',SY+':Symmetry2D.gen_additional_displacement')
p('C75','Cartesian symmetry matrices are rotations',
  'The Cartesian matrix formed for each recorded operation is orthogonal.',
  'every lattice and metric-preserving operation',
  'Needs a non-rhombic centred lattice.',
  SY+':Symmetry2D.search_independent_displacement',POST+':PostProcess.set_force_constant')
# ---------------------------------------------------------------- CLI
p('C76','Post-processing reuses the recorded pre-processing arguments',
  'When the user gives no arguments in the post-process, the displacement, enlargement, periodicity, dft code and cell files used are those recorded by the pre-process.',
  'every pre-process argument set',
  'Round trip through the record for all argument values.',
  CLI+':main')
p('C77','Explicit arguments win over the record',
  'A value the user passes explicitly in the post-process is the value used.',
  'every value',
  'Fails exactly for values equal to the defaults.',
  CLI+':main')
p('C78','The symmetry flag of the post-process agrees with the displaced cells',
  'Post-processing uses symmetry exactly when the displaced cells were generated with symmetry.',
  'every record and flag',
  'Decision logic.',
  CLI+':main')
p('C79','Option files',
  'In the option file, comments and blank lines are ignored, keys are case-insensitive, unknown keys are ignored, later lines override earlier ones, and the resulting options do not depend on the order of lines with different keys.',
  'every file content',
  'All strings and orders.',
  CLI+':main')
p('C80','Objects created with default arguments are independent',
  'Two PreProcess (PostProcess) objects created without arguments do not share state.',
  'every history of operations on two objects',
  'Aliasing through default arguments.',
  PRE+':PreProcess.__init__',POST+':PostProcess.__init__')
p('C81','Band path coordinates',
  'The horizontal coordinate of the band plot is non-decreasing, starts at 0, and increases between consecutive k points by exactly their Cartesian distance in reciprocal space; tick marks include the first and last point and exactly the repeated points.',
  'every k-point list',
  'Unbounded lists.',
  BA+':Band.set')
p('C82','Mode-resolved band weights add to one',
  'If the polarization vectors are normalised, the projected weights of every band at every k point are non-negative and add to 1.',
  'every k point and mode',
  'Universal over complex vectors.',
  BA+':Band.set')

p('C83','Explicit k-point lists',
  'In explicit (reciprocal) mode the listed k points are returned verbatim and in order; blank lines are skipped.',
  'every well-formed file',
  'Unbounded lists of numbers and strings.',
  KP+':explicit_reciprocal')

p('C84','Displaced structures follow the mode',
  'The structure written by write_mode_displace displaces every copy of a selected atom by amplitude * Re(e exp(i q.r)) / sqrt(m/m_max), e being its polarization vector, and leaves other atoms in place.',
  'every mode, k point, amplitude and cell',
  'Universal over complex vectors and cells.',
  'InterPhon/analysis/mode.py:Mode.write_mode_displace')

p('C85','Image tables of the super cell',
  'For every recorded operation and every selected atom a table is recorded that sends each selected super-cell atom to the selected super-cell atom of the same type at its image under the operation about that atom; the table is a permutation.',
  'every cell, recorded operation and enlargement',
  'Universal over cells, operations and enlargements; tests use equal enlargements.',
  SY+':Symmetry2D.search_cell_image_index', SY+':Symmetry2D.search_image_atom')
p('C86','Symmetry reduction does not change the force constants',
  'For a crystal with the symmetry found, pre-processing with symmetry, harmonic forces for the written structures and set_force_constant with symmetry give exactly the force constants between all selected super-cell atoms and all selected atoms, required or derived.',
  'every symmetric cell, enlargement and harmonic crystal',
  'End to end over the whole search; universal over crystals.',
  SY+':Symmetry2D', POST+':PostProcess.set_force_constant', 'InterPhon/core/pre_process.py:PreProcess.write_displace_cell')

p('C87','The analyses that were asked for are run',
  'If the post-process ends without an exception, density of states, thermal properties, band structure and modes have been computed exactly if they were asked for (or, for density of states and bands, if their k-point file was given).',
  'every combination of flags and k-point files',
  'All combinations of flags; silent skips look like success.',
  CLI+':main')
p('C88','Projection groups, labels and energy window',
  'Every list of atom groups can be given as text and is read back unchanged; accepted projection arguments have one label per group and an energy window has exactly two limits.',
  'every list of groups, every text',
  'All texts.',
  CLI+':main')
p('C89','Stored frequencies belong to the stored inputs',
  'After any history of set_reciprocal_lattice, set_force_constant, set_k_points and eval_phonon calls (successful or not), an eval_phonon that raises nothing leaves one ascending row of frequencies per wave vector of the last k-point file, computed from the present force constants and reciprocal lattice.',
  'every object, every history of calls, every file content',
  'Histories of calls with exceptions in between; stale state.',
  POST+':PostProcess.eval_phonon',POST+':PostProcess.set_k_points')
p('C90','Preparation calls commute and are idempotent',
  'set_reciprocal_lattice, set_force_constant and set_k_points can be called in any order with the same result, and repeating set_reciprocal_lattice, set_k_points or eval_phonon changes nothing.',
  'every object, every order, every file content',
  'All orders of calls for all inputs.',
  POST+':PostProcess.set_reciprocal_lattice',POST+':PostProcess.set_force_constant',POST+':PostProcess.set_k_points')
p('C91','Frequencies of non-periodic systems',
  'eval_phonon writes freqency_at_gamma_point.dat exactly for systems without periodic direction; with the single wave vector zero it lists the ascending signed frequencies of the force-constant matrix divided by the square roots of the masses; without frequencies the call raises.',
  'every object',
  'All force constants, masses and histories.',
  POST+':PostProcess.eval_phonon')
p('C92','Structure files survive the way from pre- to post-process',
  'In every supported format the super cell written by the pre-process can be read by the post-process, whatever the reading object held before, and gives the same lattice, atoms in the same order with the same types, and positions equal up to half a unit of the last printed digit.',
  'every unit cell with known element names, enlargement, format, comment line, species order and previous content of the reader',
  'Unbounded texts and cells; format differences show only for particular numbers, names and sizes.',
  VA+':write_input_lines',ES+':write_input_lines',AI+':write_input_lines',UC+':UnitCell.read_unit_cell','InterPhon/core/super_cell.py:SuperCell.write_super_cell')
p('C93','The post-process accepts what the pre-process wrote',
  'The files with displaced super cells that the pre-process writes, read back in the order in which they were written, pass the file-order check of the post-process, although text rounds the numbers.',
  'every cell, selection, displacement, periodicity, format, with or without symmetry',
  'End to end through unbounded text; rounding could exceed the tolerance for particular numbers.',
  CLI+':main','InterPhon/core/pre_process.py:PreProcess.write_displace_cell')
p('C94','Data files can be read back',
  'Whatever the stored values are (any size, nan, inf), total_dos.dat, projected_dos.dat, band.dat, thermal_properties.dat and the file of a non-periodic system hold two heading lines and then one line per row whose blank-separated tokens are exactly the row, rounded to nine decimals; rounding keeps the order of values.',
  'all lists of values',
  'All numbers: fixed-width columns may overflow and run together.',
  DO+':DOS.write',BA+':Band.write',TH+':ThermalProperty.write',POST+':PostProcess.eval_phonon')
p('C95','Columns of projected_dos.dat are labelled by their atom',
  'The heading of projected_dos.dat has one label per column after the frequency, in column order, naming the atom; labels of different atoms differ.',
  'all selections and atom numbers, also above 999',
  'All atom numbers.',
  DO+':DOS.write')
p('C96','Animation files contain every image',
  'XDATCAR_phonon_mode files have seven heading lines and then for every image a numbered configuration line and one line per atom; every image taken out of the file reads back as the unit cell with the positions of that image.',
  'every structure and number of images',
  'Unbounded numbers of atoms and images; text.',
  MO+':Mode.write')
p('C97','Exact frequencies of harmonic crystals at commensurate wave vectors',
  'If the forces for the displaced super cells are those of a harmonic crystal (springs of any finite range, made periodic with the super cell), then after set_reciprocal_lattice, set_force_constant, set_k_points and eval_phonon the frequencies stored for every wave vector that fits into the super cell are exactly those of the infinite crystal.',
  'every cell, selection, enlargement, amplitude, harmonic crystal and accepted k-point file',
  'End to end over all crystals; the choice of images, spring range beyond the super cell and loop indices interact.',
  PRE+':PreProcess.write_displace_cell',POST+':PostProcess.set_force_constant',POST+':PostProcess.eval_phonon')
p('C98','Exact frequencies of harmonic crystals with short springs at every wave vector',
  'If the periodic directions are at right angles and every spring reaches less than half of the super cell along each of them, the frequencies after set_reciprocal_lattice, set_force_constant, set_k_points and eval_phonon are those of the infinite crystal at every wave vector, also at those that do not fit into the super cell.',
  'every cell, selection, enlargement, harmonic crystal with short springs, and wave vector',
  'End to end over all crystals and the whole Brillouin zone; depends on the sequential search for the nearest image.',
  POST+':PostProcess.eval_phonon',PRE+':PreProcess.write_displace_cell',POST+':PostProcess.set_force_constant')
p('C99','Frequencies do not depend on the description of the crystal',
  'Rotating or reflecting the crystal, shifting the origin and listing the atoms in another order (with the springs rotated and renumbered accordingly, the same selected atoms and masses, possibly another displacement amplitude and residual forces) leaves the stored frequencies unchanged, wave vector by wave vector.',
  'every cell, selection, enlargement, periodicity, harmonic crystal, orthogonal matrix, shift, order of the atoms, k-point file and eigenvalue solver',
  'Ranges over all crystals, rotations and permutations; the image search is done in Cartesian coordinates with a strict comparison of floats.',
  POST+':PostProcess.eval_phonon',POST+':PostProcess.set_reciprocal_lattice',POST+':PostProcess.set_force_constant',PRE+':PreProcess.write_displace_cell')
p('C100','Frequencies scale with forces, masses and displacement amplitude',
  'Multiplying all forces by c, all masses by m and the displacement amplitude by a (all positive) multiplies every stored frequency, real or imaginary, by the square root of c/(a m) and leaves rows and columns in place.',
  'all cells, force files, masses, k-point files, positive factors and eigenvalue solvers',
  'Ranges over all matrices and factors, including non-Hermitian ones with complex eigenvalues.',
  POST+':PostProcess.eval_phonon',POST+':PostProcess.set_force_constant')
p('C101','Automatic limits of the frequency axis',
  'Without explicit limits every plot has a frequency axis between whole numbers that contains every calculated frequency with a margin of at least 1 and less than 2 THz; explicit limits are used as given.',
  'all spectra and explicit limits',
  'Ranges over all real spectra.',
  BA+':Band.plot',DO+':DOS.plot')
p('C102','Labels of high-symmetry points',
  'A band plot shows one label per given label in the given order; G and g become Gamma, other labels keep their text, and all carry a bar exactly if two directions are periodic.',
  'all label lists and periodicities',
  'Unbounded lists of texts.',
  BA+':Band.plot',BA+':Band.plot_with_dos')
p('C103','Projected DOS curves belong to their atoms and stack to the total',
  'A line plot of atom groups shows, per group and in order with its legend, the sum of the projected DOS over exactly the atoms of that group; stacked areas are the running sums, and if every selected atom is in exactly one group the topmost edge is the total DOS; the panel beside the bands shows the same curves; a bulk DOS is drawn times the proportion.',
  'all DOS states, atom groups, legends, orientations and proportions',
  'Ranges over all arrays and groupings.',
  DO+':DOS.plot',BA+':Band.plot_with_dos')
p('C104','Ticks and labels sit at the corners of the k path',
  'For a line path of m segments with m + 1 labels (or one label per end point for paths with jumps) the band plot marks every high-symmetry point, at its path coordinate, with its label.',
  'all line-path files, numbers of points and labels',
  'Depends on a floating tolerance that detects repeated points; ranges over all paths.',
  BA+':Band.set',BA+':Band.plot',KP+':KPoint.line_path')
p('C105','Projected DOS plots can be drawn in every dimension',
  'Once a DOS has been calculated, every choice of atom groups can be drawn as lines or stacked.',
  'all systems (0-D to 3-D), smearings, atom groups and grids',
  'Array sizes depend on the dimension and on the method.',
  DO+':DOS.plot',DO+':DOS.set')
p('C106','Symmetry requests no superfluous displacement',
  'For a required atom either three displacement directions come from symmetry images of the first one, or every image of the first direction under the operations fixing the atom is kept or parallel (within the tolerance) to an earlier image; the number of additional displacements is exactly what is missing to three.',
  'every in-plane lattice and closed set of operations fixing the atom',
  'Ranges over all site groups and orientations of the lattice.',
  SY+':Symmetry2D.search_independent_displacement',SY+':Symmetry2D.gen_additional_displacement')
p('C107','Results do not depend on what the object was used for before',
  'A complete calculation (set_reciprocal_lattice, set_force_constant with complete force files, set_k_points, eval_phonon) leaves the same wave vectors, frequencies and modes in a PostProcess object whatever was calculated, failed or was left in its arrays before; in particular the bands drawn from the deep copy of the DOS object are those of a fresh object.',
  'every cell, every history of calls (also failing ones), every stale array contents, every complete set of force files with or without symmetry',
  'Ranges over all histories and over uninitialised array contents.',
  POC+':PostProcess.set_force_constant',POC+':PostProcess.eval_phonon',CLI+':main')
p('C108','Which force files are used, and in which order',
  'With two or more force-file arguments they are used as given; with one argument all files matching the pattern are used in alphabetical order independently of the directory order, which is the numerical order if they differ only in a zero-padded number; nothing matching is an error.',
  'every argument list, every directory listing and listing order, every zero-padded numbering',
  'Ranges over all directory listings.',
  CLI+':main')
p('C109','Thermal, band and mode arguments reach the analysis as written',
  'Temperatures are exactly min + k*step below max; k labels, atoms, energy window and mode indices written with blanks are passed on as those words and integers; a projection is drawn only with atoms; DOS and bands asked for with one window get the same limits; an accepted mode k point has three numbers; an amplitude given in an option file is used as the number it denotes.',
  'every argument text',
  'Ranges over all texts and numbers.',
  CLI+':main',MO+':Mode.write_mode_displace')
p('C110','The record of the pre-process describes the unit cell',
  'The record lists every atom of the unit cell once and in order with index, type, selection flag and a position that reads back as the position rounded to 16 decimals; lattice vectors a1, a2, a3 read back rounded to 16 decimals; the list of selected indices reads back as the selection.',
  'every unit cell with one type per atom',
  'Ranges over all cells and numbers.',
  CLI+':iter_lattice_yaml',CLI+':iter_atom_yaml',CLI+':main')
p('C111','An accepted structure file gives a consistent cell',
  'Whenever read_unit_cell accepts a structure file without an exception, in any of the three formats and whatever the object held before, the attributes fit together: a 3x3 lattice, at least one atom, one type and one row of three Cartesian coordinates per atom, counts that add up to the number of atoms (POSCAR: unless the file contains negative counts; derived counts are positive), selected atoms that exist and are listed once in ascending order, three degrees of freedom for each selected atom, and all atoms selected if there is no selective dynamics.',
  'all texts of structure files (well-formed or not), all three codes, all previous contents of the object',
  'Files come from outside; consistency must follow from acceptance for every text, not for the sample files of a test suite.',
  UC+':UnitCell.read_unit_cell',VA+':read_input_lines',ES+':read_input_lines',AI+':read_input_lines')
p('C112','Structure files cut off in the atom list are rejected',
  'A structure file that ends before all its atoms are listed is not accepted silently.',
  'all texts of structure files, all three codes',
  'A cut can happen at any position of any file.',
  VA+':read_input_lines',ES+':read_input_lines',AI+':read_input_lines')
p('C113','The modes that are asked for are animated',
  'When Mode.set is called with indices given as one integer, a sequence or a text of integers and with a listed k point, Mode.write writes one file per index, in that order and named after it, and Mode.plot shows the same images: the thirty images of the mode that the index designates (negative indices count from the end) at the last listed k point that matches. An index that designates no mode raises IndexError after the files of the indices before it. A later accepted request leaves nothing of an earlier one.',
  'all k-point lists, mode arrays, index lists in the three spellings, structures, selections and masses, all earlier states of the object',
  'Index lists, structures and earlier requests are unbounded; a test checks a few.',
  MO+':Mode.set',MO+':Mode.write',MO+':Mode.plot',MO+':to_int_numpy')
p('C114','A rejected mode request changes nothing',
  'When Mode.set raises, the Mode object is as it was before.',
  'all states of the object and all rejected requests',
  'States and requests are unbounded.',
  MO+':Mode.set')
p('C115','Free energy and entropy combine to the thermal energy',
  'F + T S computed by ThermalProperty equals the Bose-Einstein energy of the spectrum at every temperature; the energy does not decrease with temperature, tends to the stored zero-point energy at T = 0 and grows like 3 k_B T per atom at high temperature.',
  'all spectra without zero frequencies, all positive temperatures',
  'Real-valued identities, limits and monotonicity over all spectra and temperatures.',
  TH+':ThermalProperty.set')
p('C116','The thermal picture shows the data of the file',
  'ThermalProperty.plot after set draws exactly the columns of thermal_properties.dat against the temperatures, with the axis from the lowest to the highest temperature; without temperatures it raises ValueError.',
  'all spectra and temperature lists',
  'Spectra and temperature lists are unbounded.',
  TH+':ThermalProperty.plot',TH+':ThermalProperty.write')
p('C117','Physical units',
  'Forces read from VASP, Quantum ESPRESSO and FHI-aims output are in newton, masses are in kilogram and the Boltzmann and Planck constants in eV/K and eV s, all up to the rounding of the constants in the source (below 0.04 %); forces of one calculation carry one common factor and so do all masses, so every reported frequency is the exact frequency of the crystal in THz with a relative error below 0.008 % and the vibration patterns are not affected.',
  'every force file of the four formats, every cell with tabulated elements, every crystal, wave vector, mode and real squared frequency',
  'a unit error scales every result consistently, so no comparison of the program with itself shows it, and a test fixes one material',
  VA+':read_output_lines',ES+':read_output_lines',AI+':read_output_lines',UC+':UnitCell.set_mass_true',POST+':PostProcess.eval_phonon',TH+':ThermalProperty.set')
p('C118','From the command line to the band, end to end',
  'Starting from a readable unit cell, the pre-process program writes SUPERCELL and the displaced super cells (read back: exactly the enlarged lattice and translates, and exactly one selected atom moved by plus or minus the amplitude along one axis per file) and changes nothing else; if the first-principles code then returns, for each of them, the forces of any infinite harmonic crystal, the post-process program with default options accepts the files and reports, for every wave vector of the k-point file that fits into the super cell, exactly the frequencies of the infinite crystal.',
  'every accepted option set without symmetry search, every well-formed unit cell with at most 16 decimals in any of the three formats, every selection, every finite-range harmonic crystal, every list of output files, every accepted k-point file with at least two points, every correct eigenvalue solver',
  'every part of the program takes part; a test compares one material with a stored output of the same program',
  CLI+':main',PRE+':PreProcess.write_displace_cell',SC+':SuperCell.set_super_cell',UC+':UnitCell.read_unit_cell',POST+':PostProcess.eval_phonon',BA+':Band.set')
p('C119',"The pre-process leaves the user's files alone",
  'The pre-process program changes no file other than SUPERCELL next to the unit cell and the numbered files named after the unit cell; in particular the unit-cell file itself is kept.',
  'every option set, every content of the file system, every outcome of the symmetry search, every run that ends without an exception',
  'it must hold for every file name the user may choose',
  CLI+':main',PRE+':PreProcess.write_displace_cell',UC+':UnitCell.write_unit_cell')
p('C120','Asking for DOS, thermal properties and bands in one run gives the results of separate runs',
  'The post-process that is asked for DOS (with or without thermal properties) and bands continues, for the bands, with a copy of the object used for the DOS. It ends without an exception with given numbers in the DOS, thermal and band files exactly when the run with the DOS alone ends with these DOS and thermal numbers and the run with the band alone ends with these band numbers.',
  'every content of the file system, every option set and record, every k-point file, width, number of points and temperature list, every content of fresh arrays, every eigenvalue solver',
  'the copied object carries the force constants, wave vectors and frequencies of the DOS; a test sees one combination of files',
  CLI+':main',POST+':PostProcess.set_user_arg',POST+':PostProcess.set_force_constant',POST+':PostProcess.eval_phonon')
p('C121','From the command line to the density of states and the thermal properties, end to end',
  'Starting from a readable unit cell, pre-process, calculations with the forces of any infinite harmonic crystal, and post-process with -dos -thermal and smearing: the run succeeds, the DOS file lists exactly num_dos equally spaced frequencies from 2 THz below the lowest to 2 THz above the highest exact frequency with, at each, the average over the wave vectors of one normal density per exact frequency of the infinite crystal, and the thermal file lists at each temperature the exact harmonic free energy and entropy per wave vector and selected atom.',
  'every accepted option set without symmetry search, every well-formed unit cell with at most 16 decimals in any of the three formats, every non-empty selection, every finite-range harmonic crystal with symmetric springs, every list of output files, every accepted k-point file whose points fit into the super cell, every width other than zero, every num_dos, every list of positive temperatures',
  'every part of the program takes part; a test compares one material with a stored output of the same program',
  CLI+':main',DO+':DOS.set',DO+':DOS.write',TH+':ThermalProperty.set',POST+':PostProcess.eval_phonon',PRE+':PreProcess.write_displace_cell')
p('C122','A run that succeeds had complete and consistent input',
  'If the pre-process ends without an exception, its options were accepted and consistent (no enlargement along a non-periodic direction) and the unit-cell file exists in the chosen format. If the post-process (band, DOS, thermal properties, or DOS and band together) ends without an exception, then its options were accepted and consistent, the unit-cell, super-cell and k-point files exist, the lattice of the super cell is the lattice of the unit cell times the enlargement (within 1e-8 + 1e-5|y|), every output file exists and has a readable structure file next to it, and - without symmetry - for every selected atom, axis and sign there is an output file at the expected place of the sorted list whose structure has as many atoms as the super cell and is the super cell with exactly this atom moved by exactly this displacement (within the same tolerance).',
  'every content of the file system, every option set and record, every list of output files, every k-point file, every eigenvalue solver, every content of fresh arrays',
  'silent success on wrong input can only be excluded by looking at every input; a test tries a few wrong ones',
  CLI+':main',POST+':PostProcess.set_user_arg',POST+':PostProcess.check_file_order',UC+':UnitCell.read_unit_cell',PC+':PreArgument.check_user_argument',PC+':PreArgument.check_match_argument')
p('C123','Structure files are accepted exactly if well-formed, and every number is the word in the file',
  'Reading a structure file (POSCAR, Quantum ESPRESSO input, FHI-aims geometry) succeeds with the structure u exactly if the text says u: the lattice vectors, counts, names, positions and selection of u are the words at their places in the file, every one of them a well-formed number (a malformed or missing word is rejected, never read as something else), positions converted by the documented unit or lattice. The lines of a text are its pieces between newlines, the last one also counting if it has no newline.',
  'every text, every structure, every earlier state of the cell object',
  'the set of texts is infinite; only a characterisation excludes that some malformed file is silently misread',
  VA+':read_input_lines',ES+':read_input_lines',AI+':read_input_lines',UC+':UnitCell.read_unit_cell')
p('C124','Incomplete tables of forces are noticed',
  'Output files are accepted only if each contains a table of forces; its rows are the numbers of its lines in the unit of the code. With symmetry every table must have three numbers for each atom of the super cell. Without symmetry a table that ends too early makes the post-process fail - except that a table of a single line (or a single column) passes if its partner (the opposite displacement) is complete: the line then counts for all atoms. Exactly these shapes are accepted, and from complete tables exactly the forces in the files are used.',
  'every content of the output files, every list of files, every number of atoms',
  'calculations can stop at any line of the output; every truncation point is a different input',
  POST+':PostProcess.set_force_constant',VA+':read_output_lines',ES+':read_output_lines',AI+':read_output_lines')
p('C125','K-point files are accepted exactly if well-formed',
  'A k-point file yields wave vectors exactly if the third line starts with the letter of a mode and: (mesh) the fourth line has three integers, 1 along the non-periodic directions and positive along the others, and the words of the fifth line, if there is one, are numbers, present for every periodic direction; (path) the second line starts with a positive integer, the end points are numbers, even in number, at least two, each segment starts in the periodic subspace and there is a non-periodic direction; (list) the announced lines consist of three numbers. The wave vectors are then exactly the mesh, path or list that the file describes.',
  'every text, every periodicity',
  'the set of texts is infinite; only a characterisation excludes that some malformed file is silently misread',
  KP+':gamma_centered',KP+':monkhorst_pack',KP+':line_path',KP+':explicit_reciprocal',POST+':PostProcess.set_k_points')
p('C126','The symmetry option changes the work, not the phonons',
  'For a crystal with exact symmetry and forces that have that symmetry, running the pre- and post-process with the symmetry option (fewer displaced super cells) gives the same wave vectors, frequencies and modes as running them without it, whatever k-point file, masses, eigenvalue solver and previous state of the post-process object; in particular the frequencies are the exact ones of the infinite crystal at wave vectors that fit into the super cell.',
  'all crystals with exact (symmorphic) slab symmetry, enlargements, selections of atoms, symmetric force constants, displacements, masses, solvers, k-point files, previous states of the object',
  'The two runs use different displacement sets and different reconstruction code; a test compares them on a few crystals only, equality for every symmetric force field needs the group argument.',
  POC+':PostProcess.set_force_constant',POC+':PostProcess.eval_phonon',PC+':PreProcess.write_displace_cell',SY+':Symmetry2D')
p('C127','Numbers and words in the text files are read by their decimal notation',
  'Every reader splits a line into exactly the maximal runs of non-blank characters; a word is accepted as an integer exactly if it is an optional sign followed by decimal digits, and as a number exactly if it is an optional sign, digits with at most one decimal point (a digit on at least one side) and an optional power of ten, and the value is the one the notation denotes; a word with any other character (for example the Fortran exponent 1.0d0) is rejected, never read as a different number; every integer word is also a number word with the same value.',
  'all words and lines',
  'The readers accept arbitrary text; a test tries a few spellings only.',
  VA+':read_input_lines',ES+':read_input_lines',AI+':read_input_lines',KP+':KptAttributes')
p('C128','Small errors in the forces give small errors in the results',
  'If every component of the forces is off by at most eta, every force constant computed without symmetry is off by at most eta divided by the displacement; with forces of a harmonic crystal up to such an error no call raises and at every wave vector that fits into the super cell every stored frequency is within sqrt(E*eta/d*sum 1/m)/pi (THz) of a frequency of the crystal; and for arbitrary forces, with or without symmetry, the stored frequencies (in order, with multiplicity) are continuous functions of the forces: for every tolerance there is an eta that guarantees it at every listed wave vector.',
  'all cells, super cells, selections, displacements, masses, crystals, k-point files, eigenvalue solvers, force lists and errors',
  'The error of the forces is unbounded in kind; a test perturbs a few numbers.',
  POC+':PostProcess.set_force_constant',POC+':PostProcess.eval_phonon')
p('C129','From the command line to the band, with errors',
  'Starting from a readable unit cell, without symmetry search and with any amplitude, the pre-process program writes the super cell and the displaced cells (rounded to 16 decimals); if the first-principles code returns, for each of these written files, the forces of a harmonic crystal up to an error of at most eta in every component, the post-process program accepts the files and every frequency it reports, at every wave vector of the k-point file that fits into the super cell, is within sqrt(E*((eta + kappa*0.5e-16 Angstrom)/d)*sum 1/m)/(pi*1e12) THz of a frequency of the infinite crystal, where kappa bounds the stiffness of the crystal, E is the number of cells of the super cell and m are the masses.',
  'every accepted option set without symmetry search, every amplitude other than zero, every well-formed unit cell with at most 16 decimals in the three formats, every selection, every finite-range harmonic crystal, every error bound, every list of output files with errors within it, every accepted k-point file with at least two points, every correct eigenvalue solver',
  'the errors of the first-principles code and of the written files are arbitrary real numbers; a test perturbs a few numbers of one material',
  CLI+':main',PRE+':PreProcess.write_displace_cell',UC+':UnitCell.write_unit_cell',POST+':PostProcess.set_force_constant',POST+':PostProcess.eval_phonon')
p('C130','From the command line to the band, with the symmetry search',
  'The same with the symmetry search for a slab (periodic along a and b): the pre-process program writes only the displaced cells the search asks for, and the post-process program reconstructs the remaining force constants by the symmetry. For a harmonic crystal with the symmetry of its unit cell, every reported frequency at a wave vector that fits into the super cell is within C*sqrt(eta + eps + 1e-16) of a frequency of the infinite crystal, where eta bounds the error of the forces, eps the deviation of the displacements asked for from the exact irrational directions, and C does not depend on either.',
  'every accepted option set with symmetry search, every well-formed unit cell with at most 16 decimals in the three formats whose recorded symmetry operations are exact (a condition the code does not check and that C85 and C86 refute in general), every finite-range harmonic crystal with that symmetry, every eps, eta, plan of displacements within eps of the one the search computes, every list of output files within eta, every accepted k-point file, every correct eigenvalue solver',
  'the operations found and the displacements chosen depend on the whole cell; a test compares a few materials with a stored output of the same program',
  CLI+':main',PRE+':PreProcess.write_displace_cell',UC+':UnitCell.write_unit_cell',POST+':PostProcess.set_force_constant',POST+':PostProcess.eval_phonon',SY+':Symmetry2D.search_independent_displacement')
p('C131','The structures written for a mode are displaced along that normal mode',
  'The super cell that write_mode_displace writes for an eigenvector of the dynamical matrix at a k point with denominators up to 100 is displaced along a normal mode of the crystal: whatever the forces at rest, in a harmonic crystal every selected atom feels the additional force -omega^2 * mass * displacement. The same for the images of the animation at the zone centre.',
  'all cells, selections, periodicities, k points with denominators up to 100, positive masses, harmonic crystals of finite range, amplitudes, eigenvalues and eigenvectors',
  'the force on every atom of every super cell in every crystal takes part; a test looks at one file',
  MO+':Mode.write_mode_displace',MO+':Mode.write')
p('C132','Rounding errors of the calculation stay within a stated bound',
  'Computed with floating-point numbers (every operation rounded with unit roundoff eps; cells, masses, amplitude, forces and k point themselves only stored up to rounding), the force constants are still computed without an exception, every entry of the dynamical matrix at a commensurate k point differs from that of the crystal by at most a stated multiple of eps, and every reported frequency is within a stated distance of a frequency of the crystal if the eigenvalue solver is backward stable; as eps tends to zero the whole stored row (sorted, with multiplicity) tends to that of the crystal. This holds although rounding can make the search for the shortest separation pick another of several equally near images.',
  'all unit cells with non-zero volume, selections, enlargements, periodicities, harmonic crystals of finite range, amplitudes, positive masses, commensurate k points, all arithmetics with unit roundoff eps that satisfy the standard model (double precision in particular), all roundings of the stored numbers',
  'a test sees one pair of inputs and roundings; the bound is about every sequence of roundings',
  POC+':PostProcess.set_reciprocal_lattice',POC+':PostProcess.set_force_constant',POC+':PostProcess.eval_phonon')
p('C133','The tetrahedron method is exact for the linearly interpolated spectrum',
  'Inside a segment, triangle or tetrahedron whose corner frequencies are not all equal, let the frequencies and any quantity given at the corners (the squared amplitudes) be interpolated linearly. For every set of frequencies, the integral of the interpolated quantity over the part of the simplex whose frequency lies in the set, relative to the size of the simplex, equals the integral over the set of what the tetrahedron method adds for this simplex (per unit weight) when the corners are sorted by frequency. Hence on a mesh the total density of states of normalised modes has in every frequency window exactly the weight of the interpolated spectrum, simplices with equal corner frequencies left out; the projected densities do so too up to the misplaced amplitudes of C45, and exactly where the corner frequencies ascend.',
  "all corner frequencies (equal ones included, as long as one differs), all corner quantities, all measurable sets of frequencies, all orders numpy's argsort may return for equal entries, all spectra, meshes (lists of simplices), numbers of bands",
  'the claim is an identity of integrals for all real corner values; a test compares a few histograms within a tolerance',
  LT+':tetrahedron_1d',LT+':tetrahedron_2d',LT+':tetrahedron_3d')
p('C134','From the command line to the tetrahedron density of states',
  "Pre-process, calculations with the forces of an infinite harmonic crystal, then the post-process with -dos and without smearing on a mesh file whose k points fit into the super cell (at least two divisions along every periodic direction, one along the others, with three periodic directions as many along the second as along the third): the run succeeds, and the total DOS file has num rows, equally spaced from 2 THz below the lowest to 2 THz above the highest frequency, holding the values of the one right-continuous density of the linear interpolation of the crystal's exact frequencies over all segments, triangles or tetrahedra of the mesh, each counted once with equal weight and simplices with equal corner frequencies left out. In three dimensions a row is nan exactly where two corners of some tetrahedron have the row's frequency and the other two a higher one. If no simplex is flat, the density integrates to the number of degrees of freedom.",
  'all codes, unit cells, selections, enlargements, periodicities with one, two or three periodic directions, amplitudes, symmetric harmonic crystals, mesh files (Gamma-centred or Monkhorst-Pack, shifted), numbers of rows, eigenvectors and sort orders numpy may return',
  'the claim relates the written rows to the exact spectrum of an infinite crystal, for every crystal and every mesh',
  CLI+':main',DO+':DOS.set',LT+':tetrahedron_1d',LT+':tetrahedron_2d',LT+':tetrahedron_3d',KP+':gamma_centered',KP+':monkhorst_pack')
p('C135','From the command line to the animated modes',
  'Pre-process, calculations with the forces of an infinite harmonic crystal, then the post-process with -band and -mode at a k point of the band path that fits into the super cell: the run succeeds and, for every index asked for, writes one animation and (with an amplitude) one displaced structure. Each shows a normal mode of the crystal with the frequency that band.dat lists for that index at that k point: in every image of a zone-centre animation and in every displaced structure the restoring force on each selected atom is minus omega squared times its mass times its displacement.',
  'all codes, unit cells, selections, enlargements, periodicities, amplitudes, symmetric harmonic crystals, k-point files, mode indices (also negative), and eigenvectors numpy may return',
  'the claim relates the written structures to the equations of motion of an infinite crystal, for every crystal and every request',
  CLI+':main',MO+':Mode.set',MO+':Mode.write',MO+':Mode.write_mode_displace',POC+':PostProcess.eval_phonon')
p('C136','The projected density of states shows which atoms move',
  'Pre-process, calculations with the forces of an infinite harmonic crystal, then the post-process with -dos and Gaussian smearing for k points that fit into the super cell: the run succeeds, and column d of projected_dos.dat holds at every frequency the average over the k points of one normal density per normal mode of the crystal, each multiplied with the share of degree of freedom d (the squared component of the orthonormal polarisation vector) in that mode.',
  'all codes, unit cells, selections, enlargements, periodicities, symmetric harmonic crystals, k-point files, smearing widths, numbers of rows, and eigenvectors numpy may return',
  'the claim relates every column of the file to the normal modes of an infinite crystal, for every crystal, mesh and choice of modes at degenerate frequencies',
  CLI+':main',DO+':DOS.set',DO+':DOS.write',POC+':PostProcess.eval_phonon')
p('C137','The pre-process may be interrupted at any moment',
  'However many pre-process runs are started for a unit-cell file and whenever each of them is stopped (exception, Ctrl-C, batch system; also in the middle of a file): no file other than SUPERCELL and the numbered files changes; the record pre_process.yaml is touched only when all other files are complete; repeating a run afterwards gives the same record and the same files as in a fresh directory, and the exact phonons at the end; and a record that is found always describes the files beside it.',
  'all histories of runs with any options, all interruption points including partial writes, all codes and unit cells',
  'the claim is about every crash point of every history of runs',
  CLI+':main',PRE+':PreProcess.write_displace_cell',UC+':UnitCell.write_unit_cell')
p('C138','The files of the post-process',
  'However many post-process runs are started and whenever each of them is stopped, only the result files change; repeating a run afterwards has the same outcome and leaves the same result files as in a fresh directory; the record post_process.yaml is written last and only if everything succeeded; and once a data file is written it reads back as the numbers of the analysis, whatever happens to the pictures and the other analyses: from a crystal with harmonic forces, total_dos.dat, thermal_properties.dat, band.dat and (for a molecule) freqency_at_gamma_point.dat contain the exact density of states, thermal properties and frequencies up to double precision and nine decimals.',
  'all histories of runs with any options, all interruption points including partial writes, all outcomes of the pictures, all crystals and spring constants',
  'the claim is about every crash point of every history of runs and all inputs',
  CLI+':main',DO+':DOS.write',TH+':ThermalProperty.write',BA+':Band.write')
p('C139','The record of the post-process',
  'post_process.yaml describes the run that wrote it: it lists all force files in the order of use, the k-point file of each analysis that has one, user arguments that are read back as the numbers used, and flags that tell which analyses were carried out; two runs with the same record do the same, i.e. use the same force files, user arguments, temperatures, smearing, projections, labels, windows, modes and k-point files.',
  'all command lines and option files, all working directories and file lists',
  'the claim compares all pairs of runs',
  CLI+':main')
p('C140','The files of the mode analysis',
  'A post-process with modes changes only its result files, whenever it is interrupted. For every mode asked for it writes an animation file with the index and the k point in its name; the file has 30 images, each readable as a VASP structure with exactly the positions of the animation up to the error of a double and half a unit of the sixteenth decimal, even if the viewer fails. If displaced structures are asked for and the viewer works, every one is in its own file, which InterPhon reads back in the format of the calculation with the same atoms, selection, lattice and positions. If the viewer fails (ASE missing), no displaced structure and no record is written. The record is the last file written.',
  'all structures, force files, k points, indices, amplitudes, viewers and outcomes of the picture, all points of interruption',
  'the points of interruption, structures, modes and numbers are infinitely many',
  MO+':Mode.write',MO+':Mode.plot',MO+':Mode.write_mode_displace',CLI+':main')
p('C141','The density of states of an isolated system without smearing',
  'For a system without periodic directions, -dos with sigma 0 writes every frequency of the selected atoms once to total_dos.dat with the value one, and the same frequencies to projected_dos.dat, and the post-process completes, whatever number of rows is asked for.',
  'all isolated structures, selections, harmonic forces, numbers of rows, k-point files and formats',
  'structures, force constants and numbers of rows are infinitely many',
  DO+':DOS.set',DO+':DOS.write',CLI+':main')
out = os.path.join(os.path.dirname(__file__), '..', 'properties.jsonl')
with open(out,'w') as f:
    for q in P: f.write(json.dumps(q)+'\n')
print(len(P))
