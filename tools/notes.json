{
 "C03": "A failed assignment changes nothing; finding: a negative displacement is silently ignored instead of rejected.",
 "C05": "Zero and negative enlargement factors are accepted along periodic directions (C05_refuted); what holds is that the factor of every non-periodic direction is 1 (C05_enlargement_positive_partial), and that fractional factors are truncated toward zero (C05_fractions_truncated).",
 "C11": "Lengths/shapes are enforced; counts, selection and distinctness are not validated by the setters (refutations proved).",
 "C15": "Both the plain and the symmetry branch; the symmetry plan is a parameter here, it is supplied by C69-C75, C85, C86.  Finding: the fallback for an unnamed point group crashes.",
 "C16": "Order holds up to 9999 files; refuted for 10000. Exact condition (C16_sorted_iff): name order = number order iff fewer than 10000 files.",
 "C17": "write_displace_cell leaves the super cell changed (last atom displaced, selective off): refuted, exact change proved. Exact condition under which nothing changes: C17_unchanged_iff.",
 "C18": "The check accepts exactly the listed order within np.allclose's tolerance.  Refuted in full: surplus files are ignored, and a displacement below 1e-5 of the coordinate is invisible.",
 "C22": "Under the covariance hypotheses that a real symmetry supplies; C86 derives those hypotheses from the crystal.",
 "C23": "Surplus files raise; missing files leave uninitialised columns (refuted). Exact condition for independence of the uninitialised memory: C23_independent_iff; which numbers of files raise: C23_rejected_iff.",
 "C25": "Lattice equivalent and never longer than the plain difference, always; shortest of all periodic images with one periodic direction or two at right angles when the plain difference is centred (C25_nearest_of_all; holds in the super cells of C98_centred). Not always the shortest: refuted for two directions with separations beyond the centred range and for a cubic bulk crystal (C25_bad_image_bulk).",
 "C31": "eig returns eigenvectors as columns, the code stores rows of the matrix: refuted; the partial theorem says what would be stored by columns.",
 "C32": "Hermitian at commensurate wave vectors, and whenever no two images tie; refuted with a tie.",
 "C34": "Implements shift (i+1/2)/n for all n, which differs from the Monkhorst-Pack formula for odd n (refuted); even n proved. Exact condition: C34_standard_iff.",
 "C37": "Only the first point of each segment is checked (refuted for the second). Exact conditions: C37_in_plane_iff, C37_mismatch_iff.",
 "C38": "Line mode always raises IndexError for three periodic directions (refuted). Exact condition: C38_accepted_iff.",
 "C39": "An unknown mode letter gives empty k points without an error (refuted).",
 "C41": "Non-negative and supported in the band; a NaN is possible where two vertex frequencies coincide with a grid frequency (refuted).",
 "C43": "Tiling, index use and weights proved; 3-D weight wrong for n2 != n3, single divisions give weight 0 or IndexError (refuted).",
 "C44": "Periodic cases and Gaussian smearing; for 0-D the projected densities are not filled (refuted).",
 "C45": "Amplitudes are taken in unsorted order (refuted); correct if frequencies arrive sorted or amplitudes are equal.",
 "C47": "A second set() doubles the densities (refuted); it changes nothing exactly when all entries are zero or NaN (C47_iff).",
 "C52": "Two zero temperatures compute nothing, a zero mode is not finite, repeating doubles (refuted).",
 "C61": "Scale factor 1 or direct coordinates; refuted for scaled Cartesian files. Exact condition: C61_scaled_iff.",
 "C62": "The scale factor is not applied to Cartesian coordinates (refuted). Exact condition: C62_scaled_iff.",
 "C63": "VASP flags and QE fixed flags proved for lines without a coordinate token '0'; refuted with such a token.",
 "C65": "Keys that are not elements exist in the table (header rows): refuted; partial theorem for all other keys; exact condition: C65_rejected_iff.",
 "C69": "For crystals whose distinct atoms of one type are more than the matching tolerance apart and a well-conditioned lattice.",
 "C70": "Fixed atoms are not tested (refuted); with all atoms selected every recorded operation is a symmetry of the whole structure.",
 "C71": "Symmorphic operations are all found; with a translation if the type check hits the right atom (C71_translation_partial); a glide translation is computed from the wrong atom and missed (refuted). Exactly what is found: C71_found_iff.",
 "C74": "Independent for periodicities with axis 2 out of plane; coplanar directions possible for periodicity 0 1 1 (refuted).",
 "C75": "Orthogonal if the two in-plane edges that an operation mixes have equal length, refuted otherwise. Exact condition: C75_orthogonal_iff.",
 "C76": "Arguments are reused; files only if pre- and post-process run in the unit cell's directory (refuted otherwise; exact condition: C76_files_iff).",
 "C77": "An explicit value equal to the default loses against the record (refuted). Exact condition: C77_explicit_wins_iff.",
 "C79": "Line grammar and last-setting semantics for one spelling per option; refuted for two spellings and for values containing '='.",
 "C80": "Default-constructed objects are shared (mutable default arguments): refuted; explicit objects do not interfere.",
 "C81": "Path length is the sum of fractional, not Cartesian, distances (refuted; equal up to a factor for cubic lattices). Exact condition for a common factor: C81_proportional_iff.",
 "C84": "Only the real part of the mode is used (refuted for complex modes). Exact condition: C84_physical_iff.",
 "C85": "Recorded tables are images; every symmetry has a table for equal enlargement, refuted for unequal enlargement with an axis-mixing operation.",
 "C86": "Proved for crystals whose recorded symmetry is exact: periodicity 1 1 0, symmorphic operations, lattices where C74/C75 hold, isotropic enlargement, force constants with the symmetry of the selected atoms. Refuted with fixed atoms (C86_fixed_atoms_refuted): a free atom in a rectangular cell with a fixed atom in a general position; the search takes the mirror planes of the free atom alone and the force constants of a spring between the two atoms come out wrong without an error.",
 "C87": "Analyses run as asked except: -mode without band k points is silently skipped (refuted), missing inputs raise; exact conditions: C87_iff.",
 "C89": "Holds whenever there are wave vectors and for the first evaluation; with a k-point file that yields none (unknown mode letter) the frequencies of the previous file stay (refuted).",
 "C90": "np.empty content of an array after an exception is left open; eigenvalue solver is any outcome of eig + argsort.",
 "C91": "File content as numbers; the text of a row is covered by the number formats.",
 "C92": "VASP, QE and AIMS; unit cell of known elements with contiguous type groups (what the writers need, C57-C59).",
 "C93": "Both branches; the symmetry branch needs a plan (outcome of the search) that lists atoms of the cell, the same in pre- and post-process.",
 "C94": "Values are doubles (rational, nan, inf); negative zero is not modelled.",
 "C95": "Finding: the three columns of an atom share one label.",
 "C96": "Positions of the images are those of C54, as rationals; num_images = 0 raises UnboundLocalError.",
 "C97": "Plain branch (no symmetry); springs of finite range; atoms that are not selected are clamped, as in the program.",
 "C98": "Proved for isolated systems, one periodic direction, and two periodic directions at right angles with a super cell at least two cells wide; refuted for three periodic directions (cubic crystal, 2x2x2 super cell, C98_bulk_refuted): the sequential search ends at a wrong image.",
 "C99": "Plain branch (no symmetry), harmonic forces; masses per atom.",
 "C100": "Plain branch (no symmetry), arbitrary forces.",
 "C101": "Exact reals; matplotlib rendering not modelled.",
 "C102": "Texts handed to matplotlib.",
 "C103": "At grid points where the projected DOS are numbers (no NaN); stackplot of matplotlib is taken to draw running sums.",
 "C104": "Proved for connected paths whose steps exceed the tolerance; on a path with a jump the inner corners get no tick and labels raise ValueError (C104_jump_refuted).",
 "C105": "Proved with smearing or with a periodic direction; for molecules without smearing line/stack plots raise ValueError (C105_molecule_refuted); exactly when they can be drawn there: C105_molecule_iff (one grid point, as many grid points as modes, or no selected atom in any group).",
 "C106": "Slab with a, b in the plane; operations isometric and compatible with the edge scaling (as C74).",
 "C107": "Force files are complete and read without exception; three coordinates per atom selected (whole atoms), as the readers produce.",
 "C108": "glob is an arbitrary function from pattern to listing.",
 "C109": "Violated for the amplitude: the option file stores disp_amp_mode as text which is never converted (C109_amplitude_refuted); everything else is proved.",
 "C110": "The YAML serialisation of the resulting dictionaries (PyYAML) is not modelled.",
 "C111": "Inversion of the three readers and the setters for an arbitrary text (Props/Readers.lean).",
 "C112": "Proved for POSCAR (acceptance implies that every announced atom has its line and was read). Refuted for Quantum ESPRESSO (nat = 2 with one position line is accepted as one atom) and for FHI-aims (the format announces no number of atoms).",
 "C113": "ASE is represented by the positions it reads; file names by the numbers they are formed from.",
 "C114": "True for bad indices; refuted for an unlisted k point: indices and k point are stored, the mode vectors are not, so files written afterwards carry the rejected k point and show the old modes. Exact condition: C114_unchanged_iff.",
 "C115": "Exact reals; overflow of cosh/sinh is not modelled.",
 "C116": "Only the data handed to matplotlib are modelled.",
 "C117": "Compared with CODATA 2018 values in the specification; the relation of force constants to forces (central difference over twice the displacement in metre) is C22.",
 "C118": "The record pre_process.yaml is a typed value; floats are exact; pictures and messages are left out. A complete example (POSCAR text, six vasprun.xml texts, k-point file) meets all hypotheses. With symmetry see C70-C75, C98-C100.",
 "C119": "The frame is proved in full; the unit-cell file is kept unless it is itself called SUPERCELL: then it is silently overwritten by the super cell (refuted theorem with a concrete run).",
 "C120": "With the symmetry flag on, two directions have to be periodic (as after a pre-process that found a point group); otherwise the searches could differ. Pictures and messages are left out.",
 "C121": "Hypothesis on the eigenvalue solver: the stored mode rows of a Hermitian matrix are normalised (true of a unitary eigenvector matrix; such a solver exists, proved). Thermal part: no frequency exactly zero (C52). sigma = 0 (tetrahedra) is C40-C45. A complete example (carbon chain, zone boundary) meets all hypotheses.",
 "C122": "Superfluous output files at the end of the list are accepted (they only need a readable structure next to them). With symmetry the order check is C18.",
 "C123": "POSCAR counts and the ESPRESSO nat are taken to be non-negative. What counts as a number is the model of float()/int() in Py.lean (decimal notation with exponent; nan, inf and underscores are not modelled).",
 "C124": "False of the code for a table cut after its first line (C124_single_row_refuted): numpy broadcasts the single row. C124_accepted_iff is the exact condition.",
 "C125": "A line of fewer than three numbers in a path or list counts as malformed in the model (numpy fails later). An unknown mode letter yields no wave vectors without an exception (C39).",
 "C126": "Partial: proved for slab cells with periodicity 1 1 0 whose recorded symmetry is exact (ExactCrystal; every crystal symmorphic about the origin is one) and force constants with the symmetry of the selected atoms, as in C86. False of the code when fixed atoms break that symmetry, since the search ignores them (C126_fixed_atoms_refuted: all frequencies 0 instead of a positive one); glide operations make the code wrong as well (C71).",
 "C127": "Python's own additional spellings inf, nan, infinity, underscores between digits and non-ASCII digits are outside the model (the model rejects them, Python accepts them); float values are exact rationals instead of the nearest double.",
 "C128": "The numbers of the model are exact; the rounding of the program's own arithmetic is not part of the error. The bound is one-sided (every stored frequency is near a true one); the two-sided, ordered statement is the continuity theorem, without an explicit rate.",
 "C129": "The error covers the forces and the rounding of the displaced cells in the files; the arithmetic of the program itself is exact in the model. The bound is one-sided (every reported frequency is near a true one); with eta = 0 and an amplitude of at most 16 decimals C118 gives equality.",
 "C130": "Partial: only for crystals on which the recorded operations are exact (ExactCrystal, which includes all symmorphic crystals written exactly; C85/C86 show the program goes wrong on others). The rational displacements of the text files can only approximate the directions computed with square roots, which is why the plan is quantified up to eps. A complete example (rectangular slab, texts of all output files) meets all hypotheses.",
 "C131": "Proved for modes whose real part is an eigenvector, hence for real modes and for all modes at the zone centre; away from half reciprocal lattice vectors this condition is also necessary (C131_along_mode_iff). False in general: the program multiplies the real part of the mode by cos(q.r) and drops the imaginary part times the sine; for a row of molecules translating as a whole the structure written has stretched molecules (C131_full_refuted). That rows of the stored array are not eigenvectors is a separate finding (C31).",
 "C132": "Branch without symmetry. Over- and underflow are excluded by the assumption on the arithmetic; the eigenvalue solver enters through backward stability. binary_rounds shows that binary floating-point numbers with p >= 2 digits satisfy the assumption with eps = 2^-p; C132_exact_arithmetic shows that with exact operations the machine model is the exact model of the other properties.",
 "C133": "The shares are Lebesgue measures in affine coordinates; the proof identifies Fourier transforms. Flat simplices contribute nothing in the code (C42_flat_contributes_nothing) although their states sit at one frequency, which no density can represent; they are left out of the sum explicitly. C133_mesh_projected says exactly which corner's amplitude is used where (mixedUp), C133_ascending when that is the right one.",
 "C134": "Normalised eigenvectors are assumed of the solver (as in C121), and sorted results of np.argsort. With different numbers of divisions along the second and third direction the weights are wrong (C43_weight_3d_refuted), hence the restriction in the statement. Exact arithmetic.",
 "C135": "The code reads rows where the modes are columns (C31): C135_files says exactly what is written; C135_animation_iff gives the exact condition for a zone-centre animation to be a mode; C135_modes_partial proves the claim when the rows are real eigenvectors; C135_no_mode and C135_refuted give a stable chain for which no animation at all is a mode, with any solver normalising like LAPACK. Exact arithmetic; plotting with ASE left out.",
 "C136": "The code reads rows where the modes are columns (C31): C136_written says exactly what the columns hold; C136_column_iff gives the exact condition for a column to be right (normal densities with different centres are linearly independent on the written rows); C136_projected_partial proves the claim when the rows of the array have the squared entries of normal modes (the result does not depend on the choice of modes at degenerate frequencies); C136_no_column and C136_refuted give atoms held by a surface with stable springs for which no column is right, with any solver normalising like LAPACK. The total density is right (C121).",
 "C137": "C137_refines: the traced program and preMain have the same complete runs; C137_user_files_kept, C137_record_last, C137_repeat and C137_exact prove the first three claims; C137_describes_partial the last one after a complete run. C137_refuted: a second run with another displacement, stopped before its record, leaves the old record (0.02) beside the new files (0.03). C137_noticed: the post-process fails in this situation unless the two displacements agree within its tolerance.",
 "C138": "The mode analysis is left out; pictures and the content of post_process.yaml are unknowns. C138_repeat and C138_both_text need input files that are not called like result files. C138_thermal_text needs the picture of the density of states not to fail, since it is drawn before that file is written.",
 "C139": "The record determines the run if the k-point files are named without directories and the label of the colour bar is not the word None (C139_directory_refuted, C139_label_refuted). With -mode and a k-point file for the density of states only, the record says that modes were asked for although none are calculated (C139_mode_flag_refuted).",
 "C140": "The texts are followed down to the bytes of the animation and structure files; what ASE writes and the text Python makes of the k point are free. Result files are recognised by their names.",
 "C141": "total_dos.dat is always right (C141_files). The program completes exactly if -ndos is at least three times the number of selected atoms (C141_completes_iff); otherwise it stops with an IndexError in the middle of projected_dos.dat and writes no record (C141_refuted). With the default of 200 rows this happens for 67 selected atoms."
}
