# Formal model of InWonYeu/interphon in Lean 4

## 1. What is here

* `lean/Verif/Py.lean` – the Python/numpy primitives the code uses (exceptions, strings as
  `List Char`, `split`/`strip`, `np.allclose`, `argsort`, `linspace`, …).
* `lean/Verif/Model/*.lean` – the model, one file per source file; every definition cites the
  file and lines of `/repo` it models and says where it simplifies.
* `lean/Verif/Spec/*.lean` – small specifications, independent of the model's helpers, in which the
  English property is written down.
* `lean/Verif/Lemmas/*.lean` – helper lemmas (nothing here is a deliverable).
* `lean/Verif/Props/*.lean` – the property theorems and, beside each, an `example` showing that a
  concrete non-trivial case meets the hypotheses.
* `MANIFEST.json` maps property ids to theorem names; `seeded/LOG.jsonl` logs mutation tests.

## 2. Trusted base

* Lean 4.33.0 kernel; axioms: at most `propext`, `Classical.choice`, `Quot.sound`
  (`#print axioms` output is summarised in section 6).  No own axioms, no compiled-code reflection.
* Mathlib (only as proved lemmas, all checked by the kernel).
* My reading of `/repo`: the code was never run; the tie between the model and the code is the
  citation in the comment of each definition.

### Modelled exactly
Control flow, indices, error outcomes (which exception), object state and aliasing where a property
is about them, string parsing/printing, integer arithmetic (Python ints are unbounded).

### Modelled with a stated idealisation
* Floating point numbers are exact elements of an ordered field `K` (ℚ in executable examples, ℝ for
  sqrt/exp/π, ℂ for phases).  Rounding is modelled for the numerical core of the branch without symmetry (`Model/Machine.lean`, C132:
  force constants, reciprocal lattice, dynamical matrix and frequencies operation by operation in any arithmetic with a unit roundoff); elsewhere
  IEEE rounding is not modelled, and NaN, infinities, over- and underflow nowhere; where the code
  would produce NaN/inf (0/0, log 0) the model either returns an error marker or the property
  excludes the case explicitly.
* numpy integer arrays are unbounded `Int`s (numpy int64 overflow not modelled).
* `numpy.linalg.inv/det/eig` are taken at their mathematical specification: `inv` is the matrix inverse
  (raises on singular), `eig` is a parameter: *any* list of eigenvalues/eigenvectors.
* Files are texts (`readlines` gives their lines); the file system is a parameter (which paths exist, what they contain).  Sorting and filtering
  of the force files, and the arguments and unit cell stored in the record, are modelled; the yaml encoding and the DFT codes are not.
* `Model/Main.lean` composes the parts into the two programs (`-pre`, and the post-process with `-band`) over a file system; all structures are read before
  the first comparison, and pictures, messages and `post_process.yaml` are left out.
* `Model/Trace.lean` writes the pre-process down again with its effects in order, for interruptions: a write is either not started, partly done (a prefix of the text, or a damaged
  record) or done; writes reach the disk in program order (no reordering by the operating system).
* `Model/ModeTrace.lean` adds the files of the mode analysis (after `-band`): texts of the animations and displaced structures; ASE's trajectory files have unknown content and `Mode.plot` unknown
  outcome.
* `Model/PostTrace.lean` does the same for the post-process without the mode analysis: the data files with the texts of `Model/Output.lean`, the pictures with unknown outcome, and
  `post_process.yaml` with unknown content; the double of a real number is an arbitrary function `fl`, and the end-to-end theorems give their error in terms of `|fl x − x|`.

### Not modelled
The rendering of pictures by matplotlib (only the data handed to it by `Band.plot`, `DOS.plot`, `Band.plot_with_dos` and
`ThermalProperty.plot` is modelled), the ASE library (only the positions handed to it), terminal
messages, `setup.py`, documentation, performance, thread/process behaviour (the code is sequential).

## 3. How each property is modelled and proved

Status words: *proved* – full statement; *partial* – the statement as a user would want it is false or
only partly provable; the proved part is named `…_partial` and, if the full statement is false of the
code, a `…_refuted` theorem gives a concrete counterexample in the model.

| id | model | method |
|----|-------|--------|
| C01–C05 | `Model/Args.lean`: argument object as a record of options, setters as `Except`-valued functions, dictionary as list of key/value pairs | invariant by induction over the dictionary/history; C05 is false (0 and negative factors accepted): partial + refuted |
| C06–C10 | `Model/SuperCell.lean`, `Model/Args.lean` over a field `K`; triple loop as nested folds with a counter | index arithmetic by induction; distinctness by linear independence of the lattice rows |
| C11–C14 | `Model/UnitCell.lean`: optional fields, each setter checks what the code checks | invariant over assignment histories; `num_atom` part false: partial + refuted |
| C15–C17 | `Model/PreProcess.lean`: write loop threading the shared super cell, output = list of (name, cell) | loop invariant ("array is pristine at the loop head"); C17 false: partial + refuted |
| C18 | `Model/Cli.lean`: `check_file_order` | comparison loop ⇔ list of expected structures; composed with the C15 model; refuted for surplus files and tiny displacements |
| C19–C23 | `Model/ForceConstant.lean` | algebra of central differences; composition with C15 model; reconstruction by symmetry under a covariance hypothesis |
| C24–C32 | `Model/Phonon.lean` over ℝ/ℂ | matrix identities; fold invariants for the image search; C31/C32 false: partial + refuted |
| C33–C39 | `Model/KPoints.lean` | mesh functions vs. a list-comprehension spec; C34(odd), C37, C38, C39 false: partial + refuted |
| C40–C45 | `Model/Tetra.lean` | field identities, integrals over ℝ, index arithmetic; C43 (n2≠n3), C45 false: partial + refuted |
| C44,C46–C48 | `Model/Dos.lean` | sums; Gaussian integral from Mathlib; C47 false: partial + refuted |
| C49–C53 | `Model/Thermal.lean` over ℝ | derivatives, inequalities, limits; list delete/insert; C52 false: partial + refuted |
| C54–C56, C84 | `Model/Mode.lean` | trigonometric sums; search loop; arithmetic of denominators |
| C57–C63 | `Model/Vasp.lean`, `Model/Espresso.lean`, `Model/Aims.lean` on lists of characters | printer/parser inverse by induction over atoms; C62, C63 false: partial + refuted |
| C64–C65 | `Model/AtomicWeight.lean` (full table) | kernel evaluation over the complete finite table plus a general argument for all strings |
| C66–C75 | `Model/Symmetry.lean` | exhaustive (complete) finite case analysis lifted by general lemmas; invariants of the search loops; C70, C71, C74, C75 false in general: partial + refuted |
| C76–C79, C87, C88 | `Model/Cli.lean` | decision logic; fold over lines; C76, C77, C79, C87 false in general: partial + refuted |
| C80 | `Model/PreProcess.lean` heap of objects with shared default | refuted; partial for explicitly supplied objects |
| C81–C82 | `Model/Band.lean` | induction over lists |
| C83 | `Model/KPoints.lean` | induction over the lines |
| C85 | `Model/Symmetry.lean`, `Model/SymPlan.lean`: image tables of the super cell | loop invariants + geometry of the super cell (C06); refuted for unequal enlargement |
| C86 | `Model/SymPlan.lean`: search → displaced cells → forces of a harmonic crystal → force constants | composition of C15, C22, C69, C73, C74, C75, C85 |
| C89–C91 | `Model/PostProcess.lean`: object state + exceptions, histories as folds | invariants over histories; commutation of calls; C89 false: partial + refuted |
| C92–C93 | `Props/Files.lean`: composition of super cell, writers, readers, planner and order check | composition of C06/C57–C59/C15/C18 with rounding bounds |
| C94–C96 | `Model/Output.lean`: text of the data and animation files | split/parse lemmas per column, induction over rows and images |
| C97 | composition of C06, C15, C19, C26, C89 with the springs of an infinite crystal (specification in `Props/Exact.lean`) | regrouping of the lattice sum by copies of the super cell; phases of super-lattice vectors |
| C98 | as C97 with the image search of `eval_phonon` (`Props/Nearest.lean`) | projections of the sequential search (case tree over the 9 steps, linear arithmetic); uniqueness of the image inside half the super cell; concrete cubic crystal against three directions |
| C99 | whole calculation run on two descriptions (`Props/Invariance.lean`) | image search commutes with rotations; dynamical matrices similar by a block-orthogonal permutation matrix, equal characteristic polynomials, sorted lists unique |
| C100 | whole post-process run on scaled inputs (`Props/Invariance.lean`) | linearity of the dynamical matrix; roots of the characteristic polynomial of a multiple; principal square root of a positive multiple |
| C101 | `Plot.window` (axis limits of `Band.plot`, `DOS.plot`) | floor/ceiling inequalities on min/max of the list |
| C102 | `Plot.kLabels` | case analysis per label; number of periodic directions as a cardinality |
| C103 | `Plot.panel`, `Plot.dos`, `Plot.sidePanel`, `Plot.bulkCurve` on top of the DOS state machine | induction over the rows added to a group; running sums; double counting over a partition; C44 for the total |
| C104 | `Plot.band` on top of `Band.set` and `linePath` | ticks = strictly increasing list characterised by membership; division with remainder of indices; telescoping path coordinate; refutation for jumps |
| C105 | `Plot.dos` after `Dos.set` | shapes (C46, C44); molecules: drawn exactly with one grid point, as many as modes, or no selected atom in a group (`C105_molecule_iff`), via row lengths |
| C106 | `SymDisp.independent`, `SymDisp.additional` | loop invariant: every candidate seen so far is kept or close to an earlier one |
| C107 | `PostProcess.step/run`, `ForceConstant.plain/sym` with explicit stale arrays | agreement lemmas for every loop: each entry used later is overwritten before it is read |
| C108 | `Cli.forceFiles` | uniqueness of the sorted permutation; order of fixed-width digit strings |
| C109 | `Cli.pyRange`, `Cli.bandArgs`, `Cli.modeArgs`, `Cli.amplitudeFactor` | arithmetic of floor division; read-back of joined words; counterexample |
| C110 | `Cli.iterLattice`, `Cli.iterAtoms`, `Cli.joinComma` | read-back of fixed-point formatting and comma-separated text |
| C111 | `readCell` = `readUnitCell` with the three `readInput` on `readlines text` | inversion of the parsers (`bind_inv`), counts of runs by induction, then the guarantees of the setters |
| C112 | as C111 | slice lengths; concrete witnesses for the two other formats |
| C113 | `Mode.Obj`: object state, `set`, `write`, `plot` | induction over the indices with the invariant that the overwritten cell differs from the input only in selected rows |
| C114 | `Mode.Obj.set` returns the state with the exception | case analysis; the refutation is stated for every object and every unlisted k point |
| C115 | `Model/Thermal.lean` | C49 formulas; exponential limits |
| C116 | `Thermal.plot` | lengths are kept by `set` in all three branches |
| C117 | Vasp/Espresso/Aims unitFactor, UnitCell.setMassTrue, Phonon.dynMatrix/freqOf, Thermal.kb/h | rational arithmetic; linearity of the dynamical matrix in the force constants; scaling of the square root |
| C118 | Main.preMain, Main.bandMain (files as a map from paths to texts) on top of all other models | composition of C02, C06, C09, C14, C15, C16, C60, C76, C78, C81, C92, C93 and C97; exactness of 16-decimal numbers under writing and reading |
| C119 | Main.preMain | induction over the written files; kernel evaluation of a complete run for the counterexample |
| C120 | Main.dosMain, Main.bandMain, Main.bothMain | both objects have the same inputs after the setters (C89, C107); inversion of every call |
| C121 | Main.preMain, Main.dosMain | composition of C118's lemmas with C44, C46, C48, C52; the exact dynamical matrix is Hermitian for symmetric springs |
| C122 | Main.preMain, Main.bandMain, Main.dosMain, Main.bothMain | inversion of every call of the program; C02, C10, C15, C18, C111 |
| C123 | Vasp.readInput, Espresso.readInput, Aims.readInput, UnitCell.assignParsed, Inout.readlines | both directions by inversion of each parser step; specification by word positions |
| C124 | Main.readForces, Main.fits, Main.pairForces, Main.oneForces, Main.allForces, Inout.forces | inversion of the reader; induction over pairs of files |
| C125 | KPoints.setKPoints and the four generators | inversion of each generator; both directions |
| C126 | PostProcess.run on the calls of one calculation, SymPlan.symPlan, PreProcess.writeDisplaceCell, ForceConstant.setSym/setPlain | C86 (exact entries of the reconstructed force constants) and C19 (exact entries without symmetry) agree on the selected atoms; the results read only these entries (results_agree, from C107); C97 for the exact frequencies |
| C127 | Py.split, Py.parseInt, Py.parseFloat (the Python built-ins str.split, int, float used by all readers) | Grammar of words given independently as inductive predicates (IsInteger, IsNumber, IsWords); both directions by structural analysis of the strings |
| C128 | forceConstant (setPlain, setSym), dynMatrix, freqOf, the call sequence on a PostProcess object | Lipschitz estimates through both branches of set_force_constant by induction over the loops; Bauer-Fike theorem for the (non-symmetrised) dynamical matrix against the Hermitian exact one; Hoelder-1/2 bound for the signed square root; continuity of the ordered spectrum by compactness and the characteristic polynomial |
| C129 | Main.preMain, Main.bandMain on top of all other models | composition of C118's lemmas (post_near) with the Lipschitz and Bauer-Fike estimates of C128 |
| C130 | Main.preMain, Main.bandMain with the plan of SymPlan.symPlan up to eps | C86 (exactness of the reconstruction) and C128 (errors in both branches) composed with the program-level lemmas; dependence of the constant only on the recorded operations and blocks |
| C131 | Mode.writeModeDisplace, Mode.commensurate, SuperCell.setSuperCell, superSprings (Props/Exact) | Bloch sum over the copies of the super cell (each spring meets exactly one copy), real part of a plane wave; two neighbouring cells determine a complex number for the converse |
| C132 | Machine.{reciprocal,setPlain,posVector,qVec,term,dynRaw,dynMatrix,freqOf} over an arbitrary Arith; Spec/Machine Rounds | error calculus operation by operation (Err), periodicity of the phase at commensurate k points so that ties in the image search do not matter, eigenvalue perturbation (near_eigenvalue_sum) and continuity of the spectrum |
| C133 | Tetra.{branch1,branch2,branch3,simplexStep,column}; Spec/Simplex {unitSimplex,bary,interp,share,mean,DensityOf} (DensityOf: right-continuous, integrable and with the given integral over every measurable set, hence determined at every point by DensityOf.unique) | Hermite-Genocchi recursion for the Fourier integral over the simplex (Fubini + one fundamental theorem of calculus), symmetry under relabelling the corners, closed forms in all patterns of equal corner values (generated by tools/gen_simplex.py, checked by ring), uniqueness of measures with equal characteristic function |
| C134 | Main.{preMain,dosMain}, Dos.{init,set,totalRows}, Tetra, KPoints; Spec/Simplex.DensityOf; TetraDos, GoodMesh, IsMeshFile, Touched in Props/ProgramTetra | composition of C118 (phonons), C125 (mesh file), C43 (simplices, each once, and weights), C44 (total), C133 (density), C41 (nan) |
| C135 | Main.{preMain,modeMain,modeOf,displaceOf,superMass}, Mode.{Obj.*,displace,displaceLoop}; ModeInput, MovesAlong, LapackSolver, modeRow in Props/ProgramMode | composition of C118 (phonons), C113/C109 (files), C131 (motion); the refutation diagonalises the dynamical matrix of a chain by hand |
| C136 | Main.{preMain,dosMain,dosOf}, Dos.{set,columnRows}; DosInput, NormalModes, smeared in Props/ProgramProjected | composition of C118 (phonons) and C48 (entries); spectral projections for the independence of the choice of modes; Vandermonde determinant for the linear independence of the normal densities |
| C137 | Main.{preTrace,traceDisplace,tracePair,traceTo,perform} in Model/Trace; Interrupted, Job, Jobs in Props/Interrupt | simulation between the traced program and preMain; frame lemmas over the list of writes; induction on histories and interruption points; composition with C118 |
| C138 | Main.{postTrace,dosTrace,bandTrace,phononsTrace,dosWrite} in Model/PostTrace; PostJob, PostJobs, IsResult, Reads9 in Props/PostInterrupt | frame lemmas over the list of writes; congruence of each step in the files it reads; composition with C94, C118, C121 |
| C139 | Cli.{postRecord,dosDict,thermalDict,bandDict,modeDict,recordValue,rangeText,postFiles} in Model/PostRecord; SameRun, recEntry in Props/PostRecord | inversion of the accepted arguments; injectivity of the recorded texts; kernel-evaluated witnesses |
| C140 | Main.{modeTrace,modePostTrace,displaceTrace,movieTrace,showTrace} in Model/ModeTrace; ModeJob, IsModeResult, Reads16 in Props/ModeTrace | traces of writes; the last write decides a file; round trips of C92 and C96; C135 for what is written |
| C141 | Main.{postTrace,dosTrace,dosWrite,dosAfter} in Model/PostTrace; MoleculeJob, PicturesShown in Props/MoleculeDos | explicit state of DOS.set without periodic directions; traces of writes; exact spectrum of C118; witness |

## 4. How the theorems are tied to the code

* Every definition of `Model/` cites file and lines; the functions keep the control flow of the source (loops are folds or
  structural recursion with the loop variables as accumulators, exceptions are `Except` values).
* Properties are stated on the results of the top-level functions (`setSuperCell`, `writeDisplaceCell`, `setKPoints`, `readInput`, …) with
  specifications (`IsMoved`, `meshSpec`, `IsStructure`, `MapsTo`, …) defined in `Spec/` or at the head of the `Props` file.
* `examples` beside the theorems instantiate the hypotheses on concrete non-trivial data.
* `seeded/LOG.jsonl`: wrong programs tried against the theorems.

## 5. Findings (claims that are false of the code; all with a kernel-checked witness)

* Arguments: enlargement 0 or negative accepted (C05); negative displacement silently ignored (C03), the record then holds `None` and the
  post-process fails.
* Unit cell: setters do not relate `num_atom` and `xyz_true` to the other arrays in every order of assignment (C11).
* Pre-process: `write_displace_cell` leaves the super cell changed (C17); file order breaks at 10000 files (C16); the handler of
  `Cannot_Search_Point_Group` raises `AttributeError` (C15); a unit cell called `SUPERCELL` is overwritten (C119); mutable default arguments are shared (C80).
* Force constants: missing force files leave uninitialised columns (C23); file-order check ignores surplus files and small displacements (C18).
* Phonons: eigenvectors taken from rows (C31); not Hermitian with tied images (C32); image search not always nearest (C25), wrong frequencies between
  commensurate wave vectors for bulk crystals even with short springs (C98).
* k points: odd Monkhorst-Pack meshes (C34), second end point unchecked (C37), line mode unusable in 3-D (C38), unknown mode silent (C39).
* DOS: vertex weights in unsorted order (C45), 3-D weight for n2≠n3 and single divisions (C43), NaN at coincident frequencies (C41), flat bands
  lost (C42), repeated `set` doubles (C47), 0-D projected densities empty (C44).
* Thermal: several zero temperatures, zero modes, repeated `set` (C52).
* Mode/band: imaginary part dropped (C84), so the structures written for complex modes are not displaced along a normal mode (C131); denominators above 100 (C56);
  fractional path lengths (C81); a rejected mode request leaves the object half changed (C114).
* Readers: scale factor not applied to Cartesian coordinates (C61, C62), QE coordinate `0` read as a fixed flag (C63), truncated force tables
  accepted and unknown VASP file names crash (C60), header words have weight `None` (C65), truncated
  Quantum ESPRESSO and FHI-aims structures accepted (C112); a force output cut after its first row is accepted and stretched over all atoms (C124).
* Symmetry: fixed atoms ignored (C70), which makes the reduced force constants wrong (C86), glide translations from the wrong atom (C71), normalised basis not orthogonal (C75), coplanar
  displacements (C74), unequal enlargement (C85).
* Command line: C76, C77, C79, C87 (see the notes in `MANIFEST.json`).

## 6. Axioms

`collectAxioms` over all property theorems: 504 depend on `propext`, `Classical.choice`, `Quot.sound`; 9 on `propext`, `Quot.sound`; 1 on
`propext` only; 1 on none.  No other axiom occurs.
