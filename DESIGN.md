# Formal model of cmtj: design and trusted base

## What this is

`/verif/lean` contains a Lean 4 model of the simulation core of cmtj (`/repo/core/*.hpp`) and of the
numeric parts of its Python library (`/repo/cmtj/utils`, `/repo/cmtj/models`) and front end (`/repo/view`), and machine-checked proofs
of the properties listed in `properties.jsonl`. The code is not run or compiled; the model is written by
reading it. Every model definition cites the file and lines it models.

Layout: `Verif/Model/*` definitions only; `Verif/Spec/*` small independent specifications;
`Verif/Lemmas/*` helper lemmas; `Verif/Props/*` the property theorems with their non-vacuity examples;
`Verif/Axioms.lean` prints the axioms of all property theorems at build time.

## Trusted base

* Lean 4.33.0's kernel. Every theorem may use only `propext`, `Classical.choice`, `Quot.sound`
  (the standard axioms of Mathlib). No own axioms, no `sorry`, no compiler evaluation.
* Mathlib's definitions of the reals, `Real.sqrt/sin/cos/exp`, lists, strings.
* The faithfulness of the model to the code, i.e. our reading. In particular:
  * **Scalars.** The model is generic in a scalar type `T` with the operations the code uses
    (class `Scalar`: arithmetic, comparisons, literals, libm functions, float-to-integer casts).
    Theorems about control flow, bookkeeping, logging and wiring are proved for *every* `T`, with no
    algebraic laws assumed, hence also for IEEE doubles. Theorems that need algebra are proved for
    `T = ℝ`. Rounding, overflow, NaN propagation are therefore not covered by the `ℝ` theorems; this is the
    main gap between model and code.
  * **Totalised division.** `x / 0` is `0` in `ℝ` but `inf/nan` in C++. Theorems over `ℝ` that divide carry the
    hypothesis that the divisor is non-zero, or the code itself throws there (`CVector::operator/`) and the
    model returns that error.
  * **Undefined behaviour** (out-of-range float-to-unsigned casts, remainder by zero, out-of-range vector
    access) is an explicit error value `Err.ub`.
  * **Exceptions** are values; a mutating call returns the exception *and* the object state at the throw, so
    exception safety can be stated.
  * **Randomness** is an arbitrary stream of draws held by each layer; every theorem quantifies over it.
  * **Noise generators.** `Layer::bfn` is a `shared_ptr`, so copies of a layer share it; the model stores it by value. No run can
    tell: a run with coloured noise creates its own in `getSolver` (junction.hpp:1604), and other runs never read it.
  * **Maps.** `std::unordered_map<string, vector<T>>` is an association list; nothing proved depends on order.

## Not modelled

FFT/DSP internals (kissfft, fftw; transforms are their defining sums), file and console I/O formatting (only which cells are read),
pybind11 itself (its rules for arguments and overloads are modelled in `Model/PyBind`), sympy's symbolic engine (the model takes derivative values as inputs), scipy/numpy
solvers (arbitrary oracles), plotting, the widgets of the Streamlit front end (its computations are modelled), wall-clock timing.

## Code modelled

| file | modelled | not modelled |
|------|----------|--------------|
| `core/cvector.hpp` | all of `CVector` | stream output |
| `core/drivers.hpp` | all driver kinds, factories, operators | – |
| `core/junction.hpp` | all of `Layer` and `Junction`, `EnergyDriver` | `getStochasticOneFNoise` (unused), trivial getters |
| `core/noise.hpp` | `OneFNoise`, `PinkNoise`, `BufferedAlphaNoise`, `VectorAlphaNoise`; `fillBuffer` in `Model/Colour` (transforms by their defining sums over complex numbers, white samples given) | kissfft itself; in `Model/Noise` (ticks) a refill yields an arbitrary buffer |
| `core/stack.hpp` | all | files' formatting |
| `core/llgb.hpp` | all | console output |
| `core/compute.hpp` | `calculateVoltageSpinDiode`, `spectralFFT`, `spectralFFTMixed` | fftw itself, the memory of the transform |
| `cmtj/utils/general.py`, `cmtj/utils/linear.py` | `VectorObj` with its text, `box_muller`, `FieldScan` (numpy's `linspace`, `deg2rad`, `rad2deg` by their formulas); `perturb_position` as an argument of the descents | – |
| `cmtj/models/ensemble.py` | all | – |
| `cmtj/models/drivers.py` | all | – |
| `cmtj/models/noise.py` | `noise_model` (draws given), `autocorrelation` (transforms by their sums) | plots and animation |
| `cmtj/utils/filters.py` | `detrend_axis` for matrices; both Butterworth filters (scipy's `lfilter` by its recursion, coefficients given) | – |
| `view/*.py` | all computations: `simulation_fns.py`, `get_config` and the setup of the fit, `simulate_domains`, `read_data`, `extract_max_resonance_lines`, the loop of `hebo_fit` (`Model/PyHebo`) | widgets and plots |
| `cmtj/utils/parallel.py` | `distribute`; the pool is an arbitrary completion order | progress bar |
| `cmtj/utils/optimization.py` | `coordinate_descent` with the aliasing of its dicts; `multiprocess_simulate` and the HEBO loop (`Model/PyHebo`; optimiser arbitrary, any order of completion) | HEBO itself, progress bars |
| `cmtj/utils/solvers.py` | `RootFinder`; scipy's `root` is an oracle | – |
| `cmtj/utils/plotting.py` | `unpack_ndim_map` | plots |
| `cmtj/utils/resistance.py` | all resistance functions; sympy's `diff` is the derivative; `compute_sd` (in `Model/PyProc`) | – |
| `cmtj/utils/procedures.py` | `PIMM_procedure`, `VSD_procedure`, `compute_spectrum_strip` (fft by its defining sum; normal draws and resistance function arbitrary) | progress bars, `np.squeeze` |
| `cmtj/utils/energy.py` | all; a set of keys is any list of its elements | – |
| `cmtj/models/oersted.py` | blocks, regions, `compute_blocks`, contributions (blocks as the flattened array) | plotting, negative indices |
| `cmtj/models/domain_dynamics.py` | all; RK45 is an arbitrary sequence of steps | – |
| `cmtj/models/general_sb.py` | layers, solver, energy, Hessian, both descents, single-layer resonance, dynamics and Jacobian, field scan, spin diode (expressions as functions of the angles, `sym.diff` as derivative, `lru_cache` and the texts that are hashed in `Model/PyCache`) | `analytical_roots`, `num_solve` (oracles), tqdm |
| `core/reservoir.hpp` | dipole functions, `GroupInteraction`, `Reservoir` | console output |
| `python/cmtj.cpp`, `cmtj/*.pyi` | all functions that are bound and documented: parameters, defaults, targets, choice of overload | fields (`def_readwrite`), reference counts, return values |

## Properties

One line each: what is modelled and how it is proved. Statuses and theorem names are in `MANIFEST.json`.

| id | model and proof method |
|----|------------------------|
| C01 | `CVector.normalize` over ℝ; direct algebra with `Real.sqrt`. |
| C02 | list constructor, indexing, checked division; case analysis. |
| C03 | `ScalarDriver.value` on the step kind; decision logic, any scalar type. |
| C04 | pulse kind with truncation towards zero; floor arithmetic over ℝ. |
| C05 | trapezoid kind = clamp spec; case split; continuity from the spec. |
| C06 | sine kinds; bounds and periodicity from Mathlib's trigonometry. |
| C07 | Gaussian kinds; the step factory builds an impulse, so the step half is refuted (`_partial` + counterexample). |
| C08 | scaling/shifting operators for all nine kinds; false for negative factors on rectified kinds: counterexample + `_partial`. |
| C09 | axial driver and masks, including the half-applied failing mask. |
| C10 | full `solveLLG`; each term is a cross product with m. |
| C11 | dissipation identity for the plain LLG right-hand side. |
| C12 | reduction identities; SOT as effective field for unit m. |
| C13 | IEC reciprocity via torque cancellation and an energy gradient spec; IDMI pair refuted by witness. |
| C14 | `calculateHeff` = sum of parts; change-one-driver theorem. |
| C15 | simulation relation between a junction and its rotated copy, preserved by each step; induction on steps. |
| C16 | normalisation invariant by induction over steps, all solvers. |
| C17 | setters normalise; constructor does not (negation witness), so `_partial`. |
| C18 | fixed point of one step, then induction. |
| C19 | dependency theorem for the multilayer runner, any scalar type. |
| C20 | simulation relation, induction on steps; refuted for RK4 with a noisy neighbour (the integrator is chosen for the whole junction), so `_partial` at run level. |
| C21 | setter = map over addressed layers; any scalar type. Refuted for repeated ids in the four setters that go through `getLayer`; `_partial` for distinct ids. |
| C22 | refuted for SOT setters and reference-type "all" (witnesses); holds for the rest (`_partial`). |
| C23 | coupling setter characterised by first adjacent pair; symmetric in the arguments. |
| C24 | constructor guards stated outright. |
| C25 | MR bounds by Cauchy–Schwarz. |
| C26 | strip MR as reciprocal sum; bounds by induction over layers. |
| C27 | loop unrolled to closed form of log times; floor arithmetic. |
| C28 | log invariant by induction over operations; key injectivity on strings; energy logging refuted (doubled `_I`). |
| C29 | iteration algebra (simulation relation that ignores time); clock restart, with a witness that time-dependent drivers break the law; LLGB clock. |
| C30 | prefix order on logs, induction over operations. |
| C31 | decision logic of `getSolver`. |
| C32 | two runs with different noise members are equal step by step, including the log; refuted for the non-stochastic Langevin driver on a layer with temperature (it removes the temperature), `_partial` otherwise. |
| C33 | formula, monotonicity, error branch; volume of constructed layers; the stochastic torque is the LLG torque of the noise field. |
| C34 | whole `stack.hpp`; guards stated outright, invariant over all histories; a run under sensible conditions never raises. |
| C35 | currents as product spec by induction over the stack, lifted to every step of a run; the *value* scales with the product only for linear drivers (C08), so `_partial` there. |
| C36 | resistance combination, induction over the list. |
| C37 | simulation relation; refuted for mixed layer counts (witness), `_partial` for homogeneous stacks. |
| C38 | log invariant by induction over calls with any outcome; members via the invariant of C28. |
| C39 | `GroupInteraction` of `reservoir.hpp`: constructor guards, simultaneous update of one step for any interaction function and scalar type, permutation equivariance of runs over ℝ (`_partial` for equal layer counts; refuted for mixed ones because the integrator of the last junction is used for all). |
| C40 | null field is the default reserved field; simulation relation; `_partial`/refuted as C39. |
| C41 | algebra of the dipole tensor; the two functions differ by 4π (refutes agreement). |
| C42 | `Reservoir` of `reservoir.hpp` (its pairs taken as the lexicographic list that `prev_permutation` produces): invariant over all client programs, then the field of every element in closed form. Refuted by witness; `_partial` for the last element. |
| C43 | whole of `llgb.hpp`; the right-hand side equals the Landau–Lifshitz–Bloch formula, then the sign of d\|m\|²/dt. At T = 0 the length is stationary, so `_partial` in the manifest. |
| C44 | refuted: thermal fields are multiplied by 0; simulation relation between two noise realisations over whole runs including logs. |
| C45 | the loop against an iteration spec; residual lemma; a zero limit reports error 0. |
| C46 | n-th tick specification by induction over ticks; partial: size 0 is accepted and reads out of range. |
| C47 | norm of vector noise; axes; bounds of the 1/f and pink sources by induction over ticks. |
| C48 | spherical coordinates with `Complex.arg` as atan2. |
| C49 | linspace model; palindromes and norms. |
| C50 | formula comparison with the C++ model; `calculate_magnetoresistance`, the polar convention and the linearised vectors refuted. |
| C51 | arbitrary completion order = permutation; duplicates in a space refuted for "exactly once". |
| C52 | heap-aliasing model of the dict; refuted by witness, characterisation of what is returned. |
| C53 | invariant over the scan loop with an oracle root solver, any scalar type; trace of the tried starts. |
| C54 | calculus-free algebraic bounds. |
| C55 | sorted ids as a permutation; list bookkeeping by cases on the index. |
| C56 | invariant over the loops that fill the matrix, for arbitrary second derivatives; calculus for decoupling; 2×2 determinant; thickness clause refuted. |
| C57 | induction over the loop: positions as closed sums of the gradients, stop index. |
| C58 | sum over blocks; C58_coordinates says in coordinates which blocks a region sets; refuted for interior regions. |
| C59 | index arithmetic; refuted for the second layer. |
| C60 | median by order statistics (unique, translation equivariant). |
| C61 | induction over layers to closed sums; comparison with the C++ strip theorem C26. |
| C62 | refuted: diagonal cells are skipped; characterisation. |
| C63 | columns of a run as a set of names; the scan returns for two layers, stops with `KeyError` for one. |
| C64 | effective field with and without the injected dipole field; refuted: the group adds it, the reservoir subtracts it. |
| C65 | Mathlib calculus: derivative of coth, sinh x > x, monotonicity of L(x)/x, intermediate value theorem. |
| C66 | log invariant by induction over calls with any outcome; columns of a run by induction over the loop; last clause refuted for Heun by witness. |
| C67 | setter = map over addressed layers. |
| C68 | trace of the group loop; log rows by induction over the steps; invariant over calls for alignment. |
| C69 | column names injective (decimal digits, underscores); log invariant over calls; trace of the loop; setters per element. |
| C70 | discrete Fourier sums evaluated with orthogonality of characters; refuted: the half-spectrum inverse halves the last kept bin and drops the Nyquist bin. |
| C71 | Mathlib derivatives along a line in the four angles; C71_circuits gives both circuits in closed form, whichever coefficients are zero. |
| C72 | trigonometric identities. |
| C73 | refuted: distances of the model against those of the cell centres. |
| C74 | double sums over blocks, exchanged. |
| C75 | algebra on the right-hand side; sign of the width equation by factoring; C75_current for the terms of the current. |
| C76 | Mathlib derivatives of the potentials; refuted for the pinning field. |
| C77 | unfolding of a step with vanishing thermal fields to the specified scheme. |
| C78 | induction over the loop along the gaps, against a functional of unit vectors. |
| C79 | derivative of the difference is zero (terms free of the layer's angles). |
| C80 | algebra on the sums of C78; rotation matrices; reindexing of the sum. |
| C81 | Mathlib derivatives of the energy; Landau–Lifshitz cross products in the spherical frame; spin-torque clause refuted. |
| C82 | invertible 2×2 relation between right-hand sides and gradient per layer. |
| C83 | Mathlib derivatives at a stationary point, symmetry of second derivatives; eigenvectors refuted by a 2×2 matrix. |
| C84 | induction over the fields, descent and roots as oracles; aliasing of the caller's objects; refuted without a start. |
| C85 | matrix of the linear system against the Jacobian; refuted. |
| C86 | equality unfolded; refuted by two layers. |
| C87 | induction over the fields with an invariant on the junction; run theorems C27 for the log; append lemma of the loop. |
| C88 | Fourier sums with orthogonality of characters. |
| C89 | one layer by algebra; refuted by a run of a junction at rest. |
| C90 | induction over rows and columns of the grid; the recursive filter solves its difference equation, which has one solution. |
| C91 | induction over the rows; orthogonality of characters for the rectified tone; C28 for logs of junctions. |
| C92 | as C91 with the transform over complex numbers; refuted by a constant column. |
| C93 | as C92; refuted by three rows. |
| C94 | names as lists of characters, C28 for the columns; refuted by ids with underscores. |
| C95 | induction over the steps with the state as a function of the step; random draws as functions; refuted by one domain and two steps. |
| C96 | Wiener–Khinchin from orthogonality of characters, Cauchy–Schwarz; refuted by a pulse. |
| C97 | C90's filter response, which is unique by induction; refuted by a gain. |
| C98 | real analysis; refuted at one point. |
| C99 | case analysis over the six names; refuted for five of them by sin/cos of degrees. |
| C100 | induction over the couplings on C23; the page is a record of partial functions from widget keys. |
| C101 | injectivity of widget keys; C101_setup for what a fit starts with when every key exists; refuted by bounds 2 and 1, and by the missing key. |
| C102 | induction over the fields; refuted by the angles of xz and yz. |
| C103 | runs of equal fields, induction over the runs; refuted by three fields and by two columns. |
| C104 | lines and words as lists of characters, induction; refuted by a file without header. |
| C105 | case analysis of numpy's broadcasting. |
| C106 | C27, C16, C20 for one field, induction over the fields, Cauchy–Schwarz. |
| C107 | argument assignment equals a declarative rule (`Stub.Means`) for distinct names, by induction; the tables are compared by the kernel; refuted by the calls listed. |
| C108 | two overloads are apart if their arities or the types of one parameter exclude each other; the first pass never disagrees with the second. `Bind.Takes` lists which values a parameter of each type takes (`C108_values`). |
| C109 | induction over the number of steps. |
| C110 | the declared conversion calls the constructor with one argument, which never fits; case analysis over the names. |
| C111 | local error by Taylor expansion of the one-step map (abstract lemmas in `Lemmas/Order`), stability by a Lipschitz bound, induction over the steps; existence by clipping and Picard-Lindelöf, since lengths are conserved. The statement counts loop iterations without the 32-bit limit of `runSimulation` (otherwise dt could not tend to 0) and, with the same constant, all runs. Refuted by the angle between two layers coupled by exchange, which the exact solution keeps and every step opens by about dt². |
| C112 | the same lemmas for the LLB right-hand side, with a start error of dt in the time coordinate since the loop advances its clock before each step. Refuted in an alternating field along z, where a run is a product of complex factors and the late clock exchanges the first factor for one more at the end. |
| C113 | a relation `Rec` between a layer and the record its last evaluation left, carried through the stages of each solver and through the loop; the columns are then read off by suffix. Two `_refuted` witnesses. |
| C114 | each solver step is unfolded once to a formula over `Spec.motion` and a noise field given by three draws; the position in the stream of draws is an invariant of the loop. |
| C115 | the field of step i is an affine image of draws 3i to 3i+2; Mathlib gives the image of a normal law and independence of functions of independent variables. |
| C116 | `Spec.Setting` lists the configuration calls; an invariant over the list of calls says that each member holds what was set last; the equation of motion is then unfolded once. |
| C117 | `Rounding T u` is the standard model of floating point arithmetic over an arbitrary scalar type; every solver ends in `normalize` (generic lemma), whose rounding error is bounded by polynomial inequalities in u. |
| C118 | error of one rounded division and exact truncation; the witness is a run over `Fl 53`, whose quotient is computed exactly. |
| C119 | `Spec.Led` relates an optimiser before and after rounds; induction over the rounds. The pool fills its futures in any order; a lemma shows that the order has no effect. |
| C120 | the same relation for the front end; the exceptions caught and not caught are followed branch by branch. |
| C121 | `Lemmas/Limit` shows that every operation of the model is continuous in the precision away from jumps; `Lemmas/QuietStep` gives closed forms of the noise-free steps of all solvers in any arithmetic; `Lemmas/LimitStep` passes to the limit in one step, `Props/Precision` by induction in a run. |
| C122 | `functools.lru_cache` as a list of stored calls on a heap of editable objects (`Model/PyCache`); induction over the program: every entry holds the result of a call of the program with the hash stored, and the text that is hashed can be read back field by field. That sympy's `Matrix` has no hash and `ImmutableMatrix` has one is taken from sympy's documentation. |
| C123 | The energy of the stack is written down independently (`Spec.stackEnergy`); its derivative along a solution of `Spec.Motion` is computed term by term, the contributions of the couplings cancelling pairwise; a falling function bounded below whose slope is Lipschitz levels off; C111 carries the bounds over to runs. |
| C124 | `Spec.SameStack` says which layers of the simulation are the stack of a solver; `C124_energy` compares the energy proved for the solver (C78) with `Spec.stackEnergy`; the slopes follow from the derivative of `stackEnergy` along curves that move one layer (`Junction.stack_slope`), the equilibria and the speed from the slopes, the relaxed runs from C123. Findings: different constants in the two parts (`C124_constants_refuted`, factor 1.00127 in the speed). |
| C125 | `Spec.Precesses` linearises the equation of motion of the simulation about a direction of every layer and asks for a solution `a cos Ωt + b sin Ωt`. The Hessian of the solver is rewritten (`second_rows`) as the slopes of the simulated fields along the two tangent directions of every layer plus the correction of the curved angles; `layer_modes` turns the kernel equation of the determinant into the equation of the precession, layer by layer. Findings: the roots are the angular frequencies divided by 6.2723 and not by 2π (`gamma * mu0` in `general_sb.py` against 220880 in `junction.hpp`). |
| C126 | `Spec.Axial` and `Spec.push` state the textbook criterion; the z-component of `Spec.motion` is `γ/(1+α²) (1-z²) push(z)` (`C126_rate`); comparison at barriers (`image_le_of_deriv_right_lt_deriv_boundary`) and the decay of `(1-z)/(1+z)` give the limits of the solution, C111 carries them over to runs of any solver (`Spec.GoesTo`). |
| C127 | Induction over the steps of a stochastic run (`steps_next`): each step calls the generator of each layer once; `Spec.colouredField` is sample `i`, from C47. `getSolver` creates the generator (`prepared`). `C127_completes` extends C114_completes to coloured noise. |
| C128 | `Model/EnergyDriver.lean` (junction.hpp:85-109). The sum of the four functions is `S·stackEnergy` of C123 plus a constant; the rate is C123_rate. C128_angle: the anisotropy energy depends on the angle to the axis only. |
| C129 | `Spec.wallEnergy` and `Spec.pairEnergy`; the two parts of the right-hand side are their slopes (`dynamics_alone`, using C76 for the potentials), so the rate is minus a sum of squares. `Spec.WallPath` says that functions solve the equations. |
| C130 | The angle obeys `φ' = c (Q hz + α hk/2 sin 2φ)`. A solution between two rest points is monotone and bounded (uniqueness of solutions), and a convergent function with convergent slope has slope limit 0 (`settles`); beyond the Walker field the mean value theorem bounds the slope. |
| C131 | `Spec.turnedOver` reverses the list and exchanges what belongs to above and below; fields and both solver steps commute with it (`C131_step`), by induction runs do (`C131_run`). |
| C132 | `Spec.StandardGenerators`: one family of independent normal draws per constructed layer; the field of step `i` uses draws `3i..3i+2` of its layer (C114), an injective choice. Copies: same draws, covariance not zero. |
| C133 | `Spec.quickLayer`; each contribution to the field scales (`Layer.quick_*`), nine driver kinds (`C133_driver`), all solver steps (`C133_step`), runs by induction (`C133_run`). |
| C134 | `Spec.GroupTrack` (coupled equations, field of all other members at each instant). A joint step with couplings kept during the step is consistent and stable (`Order.ensemble`); group steps are such steps (`C39_simultaneous`, `Carries.step`); existence by cutting off outside the unit balls (`C134_exists`); bound for loops and runs (`C134_converges`), loops end (`C134_ends`). |
| C135 | `Spec.StackTrack` (every member under the common current times `stackFactor` of the magnetisations at that instant). Any one-step scheme with a jointly smooth increment that is consistent at step zero converges (`Order.onestep`); stack steps are such a scheme, where in the direct case the factor itself depends smoothly on the step through the members already advanced (`Order.running`, `Holds.step`); `C135_converges` for loops and runs, `C135_ends`, `C135_exists`, `C135_unique`, `C135_delay` (delayed and direct coupling have the same limit). |
| C136 | `Spec.Synthetic`, `saturation`, `opening` (distance from the open state). `C136_energy` (energy is the squared opening), `C136_ground`, `C136_rest` (all states at rest). The opening falls (C123) and the torques vanish (C123, Barbalat), so along a subsequence the projections of both layers on it have a limit; four sign cases leave the open state or saturation (`Antiferro.squeeze`). `C136_opens`, `C136_saturates` for the equation of motion, `C136_linear`, `C136_saturated` for runs with every solver (C111), `C136_flop` by symmetry: uniqueness (C111) makes the layers mirror images. |
| C137 | `Spec.ReservoirTrack` (coupled equations with a choice of how the dipole field is added up), `ReservoirConverges`. Partial: false of the code (`C137_refuted`, `C137_refuted_sign`: two elements; a limit of the runs would have the slope of the intended solution at time 0, which it has not). `C137_converges_partial`: the elements are an ensemble of single layers (C134), one step is one step of it (`Reservoir.Keeps.step`, from C42), so runs converge to the solution with `misalignedField`; `C137_ends`, `C137_exists`, `C137_unique`. |
| C138 | `Spec.OneAxis`, `turnRate`, `tiltRate`, `spiral`, `textbook`. `C138_solves`: the derivative of the closed form is the right-hand side (`Larmor.spiral_slope`); `C138_runs` by C111, `C138_only` (uniqueness), `C138_tanh`, `C138_switching_time`, `C138_larmor`. |
| C139 | `Spec.walkerPeriod`, `walkerDrift`. An explicit function of the angle (`anomaly`, as in Kepler's problem) grows evenly along solutions and by `2π` per turn (`advance`), and `α X + Δ φ` grows evenly (`even_motion`). `C139_period`, `C139_drift`, `C139_mean`, `C139_slower`, `C139_exists`. |
| C140 | `Spec.passageTime` (integral), `passageClock` (logarithms). Change of variables along the path (`Switching.clock`) and the first time at the target (`passes`): `C140_up`, `C140_down`; `C140_runs` with C111 and the gap on a compact set; `C140_closed`, `C140_field`. |
| C141 | `Spec.turning`, `spinTurn`, `precession`. `C141_rates` splits the equation of motion into push and turning; `C141_orbit`, `C141_runs` (C111), `C141_period`; `C141_attracts` by the passage times of C140 from both sides, `C141_frequency`, `C141_goes`. |
| C142 | `Spec.Isolated`, `growth`, `slowing`, `relaxation`, `restState`: the Bernoulli equation `u' = (a - c u²) u` solved in closed form. `C142_solves` shows the closed form is a track of the equation of C112, `C142_runs` by C112, `C142_below`, `C142_above`, `C142_settles` (limits), `C142_ends` (runs). |
| C143 | `Spec.EasyAxis`, `axisEnergy`, `InsideAstroid`, `OutsideAstroid`, `InWell`. At a state of rest the force is a multiple of the state; Hölder's inequality excludes multiples between 0 and Hk outside the astroid (`C143_single`); falling energy and vanishing torque (C123) on the compact sphere give `C143_forgets`, runs by C111 (`C143_outside`). Inside, the circle of height `sqrt(1-(Hx/Hk)^(2/3))` is an energy barrier (`C143_trapped`, `C143_kept`, `C143_inside`). `C143_half`. |
| C144 | `Spec.pinningStrength`, `PinnedOnly`, `InWallWell`. The energy of C129 has an angle of least energy, the same everywhere; the balance of the slopes gives `C144_rest`. The combination `alpha X/Delta + phi` feels only the field and the pinning (`C144_free`). Falling energy and the intermediate value theorem give `C144_held`, the signs of the slope at quarter periods `C144_wells`. Examples: a wall moving to the bottom of its well, and one sliding over the pinning, both in closed form. |
| C145 | `Rounding.exact`: real arithmetic is a rounded arithmetic with error zero, so the limit theorems of C121 apply to families of real junctions over the neighbourhoods of a parameter (`Spec.VariesContinuously`, `C145_run`). `C145_field` and `C145_start` are the families of external fields and of starts. Convergence (C111) keeps short steps away from zero (`C145_short`), which removes the last hypothesis (`C145_curve`). |
| C146 | The states of a run are the iterates of the scheme of C111 (`states_iterate`); its slope is a composition of the right-hand side, smooth by C111, and the normalisation is smooth away from zero (`iterate_smooth`, `C146_run`). With `C145_short` no condition on the states is left; the limit of the difference quotients is the derivative (`C146_response`). |
| C147 | `Spec.SpinTransfer`, `OnlyCurrent`, `withoutCurrent` (the wall in the field that replaces the current). `C147_frame` equates the paths in the two frames; thresholds, settling and drift follow from C130 and C139 (`C147_steady`, `C147_settles`, `C147_mean`, `C147_intrinsic`), and so does the existence of paths (`C147_exists`). |
| C148 | `Spec.HallDriven`, `chiralField`, `hallVelocity`. In the angle from the stable direction the equation is that of an overdamped pendulum, solved by the ratio of half-angle sine and cosine (`Domain.pendulum`); `C148_steady`, `C148_settles`, `C148_saturates`. |

## Findings

Behaviour of the code that contradicts a listed property, or that a reader would not expect. Each is a theorem
(negation with a witness, or the characterisation of what the code does) unless marked *read only*.

* Reservoirs: with ever smaller time steps the runs tend to the solution of equations with wrongly paired dipole fields, not to the
  intended one (C137).
* Drivers: the Gaussian step factory builds an impulse (C07); negative factors on rectified kinds (C08); a failing mask is
  half applied (C09).
* Junctions: constructor does not normalise the reference vector (C17); four setters reach only the first of repeated ids
  (C21); SOT setters and reference type "all" (C22); energy logs double the `_I` entry (C28); every run restarts the clock
  (C29); the integrator is chosen for the whole junction (C20, C31, C32).
* Noise: a layer object used for several junctions is copied with its random generator, so the copies see the same thermal field
  (`C132_independent_refuted`); repeating a simulation with junctions made from the same layer objects repeats the noise.
* Stacks and groups: junction currents are overwritten (C35); the runner of the last junction is used for all
  (C37, C39, C40); the default dipole function misses 1/(4π) (C41).
* Reservoirs: tensors and magnetisations are misaligned, the last element acts on nobody (C42); the dipole field has the
  opposite sign to that of groups (C64).
* LLGB: thermal fields are multiplied by zero (C44), which with zero damping gives 0/0 in doubles (*read only*);
  the demagnetisation tensor is stored and never used (`C43_field`); `clearLog` resets the clock (C29); a zero iteration limit
  reports error 0 (C45); in Heun runs the recorded temperature and anisotropy are one step ahead of the row's time (C66).
* Noise: the coloured filter drops the Nyquist bin and halves the last kept bin instead (C70); a zero-size buffer is not
  rejected: the constructor writes element 0 of an empty buffer (C46); `NullTicker` has no virtual destructor although
  derived tickers are deleted through it (*read only*).
* Coloured noise: a run of no steps of a layer with coloured noise writes outside its buffer (`C127_empty_refuted`).
* `EnergyDriver` takes the saturation magnetisation in A/m, while layers hold it in tesla; with the value of the layer the energies
  order states wrongly (`C128_units_refuted`).
* Python resistances: `calculate_magnetoresistance` has the sign of the cosine reversed and a wrong offset; the angular GMR
  helper measures θ from the plane; the linearised second vector has a wrong sign on y (C50); a zero length, the default of
  `ResistanceParameters`, raises `ZeroDivisionError` (`C61_errors`); `box_muller` raises for a draw of 0 (`C48_box_muller`).
* Python helpers: `distribute` yields the first index for every occurrence of a repeated value (C51); `coordinate_descent`
  maximises what it calls an MSE and returns a dict that later trials have overwritten (C52); `RootFinder` stops searching after
  a root beyond the interval and returns roots of earlier calls again (C53); `unpack_ndim_map` uses permutations and skips all
  cells with a repeated index (C62).
* Oersted: the method "biot-savart" changes nothing but the check of the depth, after which `compute_blocks` raises for every structure
  of more than one cell in depth (`C58_biot_savart_refuted`); a region below the top gets only rows/(rows+1) of its current, and the default upper end of `set_region_I` raises
  (C58); block centres are at half their coordinates, which doubles all fields (C73); `compute_blocks` adds the fields again
  when repeated (`C58_again`).
* Domain walls: edges repel walls with Q = 1 and attract walls with Q = -1 (`C129_edges_refuted`); with a dynamic width and the in-plane
  anisotropy field the angle moves up the energy the width moves down (`C129_width_refuted`); the second wall's velocity is computed from the first wall's width (C59); the pinning field misses the factor
  1/period (C76).
* LLGB log: the perpendicular damping column of an Euler–Heun row is one step ahead of the others (`C66_alphas_eulerHeun`).
* Smit–Beljers: `single_layer_resonance` is proportional to the thickness (C56); damping enters the spin-torque terms with the
  wrong sign (C81); `dynamic_layer_solve` returns rows of the eigenvector matrix (C83); a field scan without start position
  sets the caller's first field to length 1 (C84); the spin-diode response ignores the excitation value and misses 1+α²,
  `cache_var="f"` raises (C85); layer equality ignores DMI field, demagnetisation and torques (C86); the two gyromagnetic
  constants differ slightly, 28.024 GHz/T against 1.76e11/2π (*read only*).
* Procedures: the spin-diode procedure cannot read a one-layer junction: it looks up "Resistance", the log has "R" (C63), and its
  default `resistance_params=[]` is refused for every junction (`C90_refused`); PIMM passes magnetisations that carry the weights of
  the average to the resistance function (C89); a sine of frequency -1 is refused by the driver (`C90_completes`); the PIMM pulse
  includes both ends, so it covers one sample more than `pulse_duration` names when samples fall on them (`C87_scan`).
* Spectra of logs: the check for an empty log in `spectralFFT` and `spectralFFTMixed` comes after `log["time"]` has inserted that
  column, so it never fires and the last of no elements is read (C92, C93); the entry at frequency 0 is not divided by the length (C92);
  `spectralFFTMixed` returns one amplitude too many and needs three rows (C93); `calculateVoltageSpinDiode` accepts a start
  after the last row (C91); the output buffer is never deleted (*read only*).
* Energies from logs: an underscore in an id gives a KeyError, or silently the magnetisation of another layer; an id beginning with H in a
  two-layer junction makes the resistance a field; an id ending with J divides by the surface; interlayer fields are divided by the
  volume (C94).
* Telegraph noise: between events the background is added to the row before, so it accumulates into a random walk that restarts at every
  event; the first row adds to the last one, which is still zero; without oscillations and background there is an UnboundLocalError (C95).
* `autocorrelation` does not pad its transform and wraps around (C96). The band-pass filter ignores the sampling frequency for tuples and fails
  with an UnboundLocalError for floats other than 0 (C97). The Python sine driver takes an angular frequency (C98).
* Front end: the Smit-Beljers sweep takes degrees as radians (C99); pulse measurements under 4 ns cannot run (C100); the exchange of bounds in
  `get_config` has no effect and no widget gives the anisotropy axis the fit reads (C101); the easy axes xz and yz lie in the plane (C102); the error
  of a fit shifts targets when a field has no frequency (C103); the first line of a data file is always dropped (C104);
  `extract_max_resonance_lines` adds a list of `None` to an array (C105).
* Python module: keywords are refused by 56 functions bound without names and 6 with other names than documented; the eighth positional argument of
  `Layer` is the damping, documented as temperature; `persist` of `runSimulation` does not exist and shifts the positions after it;
  `GroupInteraction.getLog()` is not bound; `getVectorAxialDriver` cannot be called on an object; two defaults differ (C107);
  `Junction(layers)` never uses the defaults of `Rp` and `Rap` (C108); iterating over a `CVector` never ends and unpacking it raises (C109);
  lists are never converted to `CVector`; `cmtj.none` is `Reference.none`, so functions with an `Axis` refuse it (C110).
* Several layers: `runMultiLayerSolver` steps every layer with RK4 in the field of neighbours frozen at the start of the step, so that coupled
  layers converge with order 1 only, and a chain of undamped layers drifts; Heun (order 2) is the better choice there (C111).
* LLGB: `runSimulation` increments `time` before it steps, so the step from t to t + dt samples the drivers from t + dt to t + 2 dt. With drivers
  that depend on time Heun is of first order only (C112).
* `Hfluctuation` is logged in the `_Hth` columns but never written: these columns are zero at every temperature (C113).
* The energy columns hold the last stage of the solver. With RK4 and Heun this is time t + dt while the row has time t (C113).
* With a torque the current is logged twice per row, so the `_I` column is twice as long as the others (C113).
* `runSimulation(30e-9, 1e-12)` makes 29999 steps in double precision, because the quotient is truncated and not rounded (C118).
* An interrupted fit of the front end raises `UnboundLocalError` and loses the optimiser (C120).
* `Solver.dipoleMatrix` is not part of the text a solver is hashed by: after replacing it `create_energy` keeps returning the old energy
  (C122). Layers that compare equal can have different hashes (C122).
* `analytical_field_scan` always raises `TypeError`: `analytical_roots` hands a `sym.Matrix`, which sympy does not hash, to `create_energy`,
  which is wrapped in `lru_cache` (C84).
* The two parts of the program use different constants: μ₀ is 12.566e-7 in Python and 12.57e-7 in C++, and the product γμ₀ of the Smit-Beljers
  dynamics is 1.00127 times the gyromagnetic constant of the simulation. Their frequencies differ accordingly (C124).

## Rounded arithmetic

The model is generic in the scalar type, so theorems on rounded arithmetic speak about the same definitions as theorems over the reals.
`Verif/Rounding.lean` states what is assumed of a floating point type: `Rounding T u` gives each value a real number, and each operation of the model is the real operation up to a relative error u.
Comparisons and conversions to integers are exact. Overflow, underflow, infinities and NaN are outside this model.
`Fl p` is a concrete instance: binary numbers with p digits, unbounded exponent, and rounding to nearest. Ties round up here and to even in IEEE 754.
The step counts of C118 involve no ties.
