{"id": "C01", "title": "Normalising a vector keeps its direction and gives unit length", "statement": "CVector.normalize() turns every non-zero vector into the unit vector with the same direction, leaves the zero vector unchanged, never raises, and doing it twice is the same as doing it once.", "quantifier": "for every vector (real arithmetic)", "why_tests_cant": "infinitely many vectors; a test samples a few and cannot separate 'same direction' from 'some unit vector' everywhere", "anchors": ["core/cvector.hpp:CVector::normalize", "core/cvector.hpp:CVector::length"]}
{"id": "C02", "title": "Vector indexing, list conversion and division have exactly the documented domain", "statement": "Building a CVector from a list works exactly for lists of length three and tolist/indices 0,1,2 give the components back; every other index silently yields z; division raises exactly for a zero divisor and otherwise undoes multiplication.", "quantifier": "for every list, every integer index and every scalar", "why_tests_cant": "all list lengths and all integer indices (negative ones too) are in scope", "anchors": ["core/cvector.hpp:CVector::CVector(vector)", "core/cvector.hpp:CVector::operator[]", "core/cvector.hpp:CVector::operator/", "core/cvector.hpp:CVector::tolist"]}
{"id": "C03", "title": "Step driver is an exact window", "statement": "A step driver has value constant+amplitude at exactly the times in the closed window [timeStart,timeStop] and constant elsewhere; its factory rejects exactly the windows with timeStop <= timeStart.", "quantifier": "for every constant, amplitude, window and time", "why_tests_cant": "uncountably many times, both window ends included", "anchors": ["core/drivers.hpp:ScalarDriver::stepUpdate", "core/drivers.hpp:ScalarDriver::getStepDriver", "core/drivers.hpp:ScalarDriver::getCurrentScalarValue"]}
{"id": "C04", "title": "Pulse driver is periodic with the requested duty cycle", "statement": "For positive period and duty cycle in [0,1), at every non-negative time a pulse driver is high exactly when the time since the start of the current period is at most cycle*period; it repeats with the period.", "quantifier": "for every period > 0, duty cycle and time >= 0 (real arithmetic)", "why_tests_cant": "every time and every number of elapsed periods; tests look at a few samples of a few periods", "anchors": ["core/drivers.hpp:ScalarDriver::pulseTrain", "core/drivers.hpp:ScalarDriver::getPulseDriver"]}
{"id": "C05", "title": "Trapezoid driver is the continuous clamped ramp", "statement": "For positive edge time and non-negative steady time the trapezoid driver equals constant plus amplitude times the clamp to [0,1] of the smaller of the rising and the falling ramp; hence it is continuous, stays between constant and constant+amplitude and is constant outside the pulse.", "quantifier": "for every time and all admissible parameters (real arithmetic)", "why_tests_cant": "continuity and bounds are statements about all times", "anchors": ["core/drivers.hpp:ScalarDriver::trapezoidalUpdate", "core/drivers.hpp:ScalarDriver::getTrapezoidDriver"]}
{"id": "C06", "title": "Sine-type drivers stay in their band and repeat with 1/frequency", "statement": "The sine driver stays within |amplitude| of its constant, the positive sine never drops below the constant, the half sine never rises above it (it passes the non-positive half wave only), and all three repeat with period 1/frequency.", "quantifier": "for every time and parameters with non-zero frequency (real arithmetic)", "why_tests_cant": "all times and parameters", "anchors": ["core/drivers.hpp:ScalarDriver::getCurrentScalarValue", "core/drivers.hpp:ScalarDriver::getSineDriver", "core/drivers.hpp:ScalarDriver::getPosSineDriver", "core/drivers.hpp:ScalarDriver::getHalfSineDriver"]}
{"id": "C07", "title": "Gaussian drivers follow their documented formulas", "statement": "The Gaussian impulse peaks at t0 with constant+amplitude, is symmetric about t0 and decays to the constant; the Gaussian step rises from the constant to a plateau above it and stays there (documented erf step).", "quantifier": "for every sigma > 0, t0, amplitude and time (real arithmetic)", "why_tests_cant": "limit behaviour and all times; no finite run shows a limit", "anchors": ["core/drivers.hpp:ScalarDriver::getGaussianImpulseDriver", "core/drivers.hpp:ScalarDriver::getGaussianStepDriver", "core/drivers.hpp:ScalarDriver::getCurrentScalarValue"]}
{"id": "C08", "title": "Scaling and shifting a driver act on its signal", "statement": "driver*k (and driver*=k) gives k times the original signal at every time for every driver kind; driver+v (and +=) adds v to the offset and to the amplitude; both forms of each operator agree; the wave shape parameters are untouched.", "quantifier": "for every driver kind, every parameter set, every factor and every time", "why_tests_cant": "nine driver kinds times all parameters and times", "anchors": ["core/drivers.hpp:ScalarDriver::operator*", "core/drivers.hpp:ScalarDriver::operator*=", "core/drivers.hpp:ScalarDriver::operator+", "core/drivers.hpp:ScalarDriver::operator+="]}
{"id": "C09", "title": "Axial drivers act per axis and masks null exactly the masked axes", "statement": "An axial driver's vector value at a time is component-wise the value of its three scalar drivers; a uniaxial driver is non-zero only on its axis; applying a binary mask zeroes exactly the axes whose mask is 0 for all times and leaves the others alone; a non-binary mask raises.", "quantifier": "for every axial driver, mask and time", "why_tests_cant": "all masks, axes, driver kinds and times; the failing path mutates half the object", "anchors": ["core/drivers.hpp:AxialDriver::applyMask", "core/drivers.hpp:AxialDriver::getUniAxialDriver", "core/drivers.hpp:AxialDriver::getCurrentAxialDrivers"]}
{"id": "C10", "title": "The deterministic torque never changes the length of m", "statement": "The LLG right-hand side is orthogonal to the magnetisation it is evaluated at, for plain layers, STT layers (both formulations) and SOT layers (static and driver-based), with any neighbours, references, drivers and stray fields.", "quantifier": "for every layer configuration, time, magnetisation and neighbour magnetisations (real arithmetic)", "why_tests_cant": "infinitely many configurations and states", "anchors": ["core/junction.hpp:Layer::solveLLG", "core/junction.hpp:Layer::calculateLLGWithFieldTorque", "core/junction.hpp:Layer::calculateHeff"]}
{"id": "C11", "title": "Damping never pumps energy into the layer", "statement": "For a layer without spin torques and with non-negative damping the magnetisation always moves so that its projection on the effective field does not decrease; it is stationary exactly when m is parallel to the effective field; with zero damping the projection is conserved.", "quantifier": "for every layer without STT/SOT, state and time (real arithmetic)", "why_tests_cant": "sign of an expression over all states", "anchors": ["core/junction.hpp:Layer::solveLLG"]}
{"id": "C12", "title": "Spin torques vanish when their source does, and SOT equals an extra effective field", "statement": "An STT layer with zero current or zero polarisation, an SOT layer with zero torques and any layer with zero reference vector evolve exactly like the plain layer; for unit m the SOT right-hand side equals the plain one with effective field H + Hfl*p + Hdl*(m x p).", "quantifier": "for every layer configuration and state (real arithmetic)", "why_tests_cant": "an identity between two formulas over all states", "anchors": ["core/junction.hpp:Layer::solveLLG"]}
{"id": "C13", "title": "Interlayer exchange is reciprocal", "statement": "The exchange (bilinear and biquadratic) torques that two coupled layers exert on each other cancel when weighted with Ms*thickness, and the field on each layer is the gradient of one common energy; the interlayer DMI fields of a pair are gradients of one common energy as well.", "quantifier": "for all magnetisations, coupling constants, Ms and thicknesses (real arithmetic)", "why_tests_cant": "an action-reaction identity over all states", "anchors": ["core/junction.hpp:Layer::calculateIEC", "core/junction.hpp:Layer::calculateIEC_", "core/junction.hpp:Layer::calculateIDMI", "core/junction.hpp:Junction::setIECDriver", "core/junction.hpp:Junction::setIDMIDriver"]}
{"id": "C14", "title": "The effective field is the sum of its documented parts and nothing else", "statement": "calculateHeff is the sum of external, anisotropy, IEC, IDMI, Oersted, DMI, fluctuation and reserved fields minus demagnetising and dipole fields, each linear in its own driver value; switching one driver changes the field by exactly that contribution.", "quantifier": "for every layer, state and time (real arithmetic)", "why_tests_cant": "linearity and frame conditions over all drivers and states", "anchors": ["core/junction.hpp:Layer::calculateHeff", "core/junction.hpp:Layer::calculateHeffDipoleInjection", "core/junction.hpp:Layer::calculateAnisotropy", "core/junction.hpp:calculate_tensor_interaction"]}
{"id": "C15", "title": "The dynamics do not depend on the choice of axes", "statement": "Rotating the initial magnetisations, anisotropy axes, references, tensors and all vector drivers of a junction by one rotation rotates the whole simulated trajectory by that rotation, step by step, and leaves the two-layer magnetoresistance unchanged.", "quantifier": "for every rotation, junction, number of steps (real arithmetic)", "why_tests_cant": "a relation between two whole trajectories, for all rotations and lengths", "anchors": ["core/junction.hpp:Layer::rk4_step", "core/junction.hpp:Layer::solveLLG", "core/junction.hpp:Layer::calculateHeff", "core/junction.hpp:Junction::runMultiLayerSolver"]}
{"id": "C16", "title": "Magnetisation stays a unit vector", "statement": "After every solver step (RK4, Heun, Euler-Heun, single or multi layer, with any noise) every stepped layer's magnetisation has length one, or is the zero vector if the un-normalised update vanished; for noiseless Heun and Euler-Heun steps from a unit vector it never vanishes.", "quantifier": "for every junction, solver, noise realisation and number of steps (real arithmetic)", "why_tests_cant": "an invariant of unboundedly long runs", "anchors": ["core/junction.hpp:Layer::rk4_step", "core/junction.hpp:Junction::heunSolverStep", "core/junction.hpp:Junction::eulerHeunSolverStep", "core/junction.hpp:Layer::rk4_stepDipoleInjection"]}
{"id": "C17", "title": "A layer always starts with unit magnetisation", "statement": "Setting a magnetisation through the API (constructor, setMagnetisation, setLayerMagnetisation) stores the normalised vector and rejects the zero vector.", "quantifier": "for every vector and every way of setting it", "why_tests_cant": "all vectors", "anchors": ["core/junction.hpp:Layer::Layer", "core/junction.hpp:Layer::setMagnetisation", "core/junction.hpp:Junction::setLayerMagnetisation"]}
{"id": "C18", "title": "Equilibrium states do not drift", "statement": "If all drivers are constant, no spin torque or noise is active and every layer's unit magnetisation is parallel to its effective field, then simulating any number of steps with any deterministic solver leaves every magnetisation unchanged.", "quantifier": "for every junction at equilibrium and every number of steps (real arithmetic)", "why_tests_cant": "unbounded run lengths, all equilibria", "anchors": ["core/junction.hpp:Layer::rk4_step", "core/junction.hpp:Junction::runMultiLayerSolver", "core/junction.hpp:Junction::heunSolverStep"]}
{"id": "C19", "title": "A layer sees only its direct neighbours, taken at the same instant", "statement": "In a multilayer RK4 step the new magnetisation of a layer is a function of its own state and of the previous-step magnetisations of the layers directly below and above only; the order in which layers are updated does not matter.", "quantifier": "for every junction, step and layer; any arithmetic", "why_tests_cant": "a dependency statement over all states, not visible in sampled outputs", "anchors": ["core/junction.hpp:Junction::runMultiLayerSolver", "core/junction.hpp:Junction::runSingleLayerSolver", "core/junction.hpp:Layer::rk4_step"]}
{"id": "C20", "title": "Uncoupled layers evolve as if they were alone", "statement": "If no exchange, IDMI, dipole or reference coupling is set, the trajectory of each layer inside a multilayer junction is identical to that of the same layer simulated in a junction of its own.", "quantifier": "for every junction, layer and number of steps (real arithmetic)", "why_tests_cant": "equality of whole trajectories", "anchors": ["core/junction.hpp:Junction::runMultiLayerSolver", "core/junction.hpp:Junction::runSingleLayerSolver", "core/junction.hpp:Layer::calculateIEC"]}
{"id": "C21", "title": "Layer setters act on exactly the addressed layers", "statement": "A junction-level layer setter applied with an id changes exactly the layers carrying that id, with \"all\" every layer, sets only the addressed driver, and raises without any change when no layer matches.", "quantifier": "for every junction, id, driver and setter; any arithmetic", "why_tests_cant": "all junctions and ids, including duplicates and unknown ids", "anchors": ["core/junction.hpp:Junction::scalarlayerSetter", "core/junction.hpp:Junction::axiallayerSetter"]}
{"id": "C22", "title": "A failing setter leaves the junction as it was", "statement": "If a junction-level setter raises an error, the observable behaviour of every layer is unchanged.", "quantifier": "for every setter, junction and argument", "why_tests_cant": "every failure point of every setter", "anchors": ["core/junction.hpp:Layer::setFieldLikeTorqueDriver", "core/junction.hpp:Layer::setDampingLikeTorqueDriver", "core/junction.hpp:Junction::setLayerReferenceType", "core/drivers.hpp:AxialDriver::applyMask"]}
{"id": "C23", "title": "Coupling between two layers is symmetric in the arguments", "statement": "setIECDriver/setQuadIECDriver/setIDMIDriver(a,b,d) is the same as with (b,a,d); it succeeds exactly when layers a and b are adjacent, then the lower layer's upward and the upper layer's downward coupling are both d, no other layer or driver changes, and otherwise it raises and changes nothing.", "quantifier": "for every junction, pair of ids and driver; any arithmetic", "why_tests_cant": "all stack heights and id pairs", "anchors": ["core/junction.hpp:Junction::setCouplingDriver", "core/junction.hpp:Junction::setCouplingDriverAxial", "core/junction.hpp:Junction::setIECDriver"]}
{"id": "C24", "title": "Junction construction accepts exactly the supported configurations", "statement": "A classic MTJ junction is accepted exactly for one layer with a non-zero reference or two layers; a strip junction exactly when all seven resistance vectors have one entry per layer; an empty layer list is always rejected; reading the magnetoresistance raises exactly for junctions without an MR model.", "quantifier": "for every layer list and parameter vectors", "why_tests_cant": "all list lengths and parameter combinations", "anchors": ["core/junction.hpp:Junction::Junction", "core/junction.hpp:Junction::getMagnetoresistance"]}
{"id": "C25", "title": "Classic magnetoresistance interpolates between Rp and Rap", "statement": "For unit vectors and Rp <= Rap the classic magnetoresistance lies in [Rp,Rap], equals Rp exactly for parallel and Rap exactly for antiparallel vectors (when Rp < Rap), decreases as the angle closes, and is symmetric in the two layers.", "quantifier": "for all unit vectors and all Rp <= Rap (real arithmetic)", "why_tests_cant": "bounds over all directions", "anchors": ["core/junction.hpp:Junction::calculateMagnetoresistance", "core/junction.hpp:Junction::getMagnetoresistance"]}
{"id": "C26", "title": "Strip magnetoresistance is the parallel combination of the layers", "statement": "The strip resistance reports, per direction, the parallel combination of the per-layer values and 0 for z; the per-layer values are the documented quadratic forms in m; for positive per-layer values the combination is positive and below each of them.", "quantifier": "for every number of layers, parameters and magnetisations (real arithmetic)", "why_tests_cant": "any number of layers", "anchors": ["core/junction.hpp:Junction::stripMagnetoResistance"]}
{"id": "C27", "title": "A run executes the requested steps and logs the requested samples", "statement": "runSimulation performs floor(total/step) integration steps at times i*step; it logs after the step at exactly the step numbers divisible by floor(write/step), so the number of new rows is the ceiling of the quotient; it raises before doing anything when the step exceeds the write interval.", "quantifier": "for all durations, steps and write intervals (real arithmetic for the counts, any arithmetic for the structure)", "why_tests_cant": "every run length", "anchors": ["core/junction.hpp:Junction::runSimulation"]}
{"id": "C28", "title": "All log columns of a junction stay aligned", "statement": "After any sequence of runs and clearLog calls every column of the junction log has the same number of entries (one per logged row), so row k of every column belongs to the same instant and saving the log never reads out of range.", "quantifier": "for every junction with distinct layer ids and every sequence of operations", "why_tests_cant": "all operation histories, all layer ids (string collisions)", "anchors": ["core/junction.hpp:Junction::logLayerParams", "core/junction.hpp:Junction::clearLog", "core/junction.hpp:Junction::saveLogs"]}
{"id": "C29", "title": "Running twice equals running once for longer", "statement": "With time-independent drivers and no noise, running n steps and then m steps gives the same final magnetisations as running n+m steps; with time-dependent drivers the second run restarts the drivers' clock at 0; an LLGB junction keeps its clock, so there the law holds for all drivers.", "quantifier": "for every junction, driver set, n and m", "why_tests_cant": "all splits of all runs", "anchors": ["core/junction.hpp:Junction::runSimulation", "core/llgb.hpp:LLGBJunction::runSimulation", "core/llgb.hpp:LLGBJunction::clearLog"]}
{"id": "C30", "title": "Logs only grow until cleared", "statement": "A run never alters previously logged rows, it appends; clearLog empties the log completely and leaves the physical state alone; the rows after clearLog plus a run are those of the run.", "quantifier": "for every sequence of operations", "why_tests_cant": "all histories", "anchors": ["core/junction.hpp:Junction::logLayerParams", "core/junction.hpp:Junction::clearLog", "core/junction.hpp:Junction::runSimulation"]}
{"id": "C31", "title": "The integrator actually used is determined by the noise settings", "statement": "If no layer is noisy the requested solver is used; if any layer has a temperature or alpha noise, RK4 and Dormand-Prince requests are replaced by Euler-Heun while Heun and Euler-Heun requests are honoured; a Dormand-Prince request otherwise runs as RK4.", "quantifier": "for every junction and requested mode", "why_tests_cant": "all layer combinations", "anchors": ["core/junction.hpp:Junction::getSolver"]}
{"id": "C32", "title": "Noise-free junctions are deterministic", "statement": "If no layer has a temperature driver or alpha noise, the trajectory does not depend on the random generators at all; settings made through setOneFNoise or the non-stochastic Langevin driver have no influence on any trajectory.", "quantifier": "for every noise realisation, junction, solver and number of steps; any arithmetic", "why_tests_cant": "all noise realisations", "anchors": ["core/junction.hpp:Junction::getSolver", "core/junction.hpp:Layer::getStochasticLangevinVector", "core/junction.hpp:Layer::setOneFNoise", "core/junction.hpp:Layer::setNonStochasticLangevinDriver"]}
{"id": "C33", "title": "Thermal noise has the documented strength and refuses an undefined volume", "statement": "The thermal field's standard deviation is sqrt(2*alpha*kB*T/(Ms*volume*gyro)), is monotone in temperature and zero at T=0, and evaluating it for a layer of zero surface raises instead of dividing by zero; the stochastic torque is orthogonal to m.", "quantifier": "for every layer, temperature and time step (real arithmetic)", "why_tests_cant": "all temperatures and parameters", "anchors": ["core/junction.hpp:Layer::getLangevinStochasticStandardDeviation", "core/junction.hpp:Layer::getStochasticLangevinVector", "core/junction.hpp:Layer::stochasticTorque"]}
{"id": "C34", "title": "Stack construction and configuration are validated", "statement": "A stack is accepted exactly for at least two junctions all with classic MR; a coupling vector exactly when it has one entry per gap; non-delayed coupling exactly when every junction has two layers; reading a log by index raises exactly out of range.", "quantifier": "for every list of junctions and every configuration call", "why_tests_cant": "all stack sizes", "anchors": ["core/stack.hpp:Stack::Stack", "core/stack.hpp:Stack::setCouplingStrength", "core/stack.hpp:Stack::setDelayed", "core/stack.hpp:Stack::getLog"]}
{"id": "C35", "title": "Stack currents follow the coupling recursion and do not compound over time", "statement": "At every step junction j carries the stack current scaled by the product over the previous junctions of (1 + coupling*alignment); the factor is recomputed from scratch each step, so with zero coupling all junctions carry the same current.", "quantifier": "for every stack, coupling vector, state and step", "why_tests_cant": "products of any length over all states", "anchors": ["core/stack.hpp:Stack::runSimulation", "core/stack.hpp:Stack::getCoupling", "core/stack.hpp:SeriesStack::getEffectiveCouplingStrength", "core/stack.hpp:ParallelStack::getEffectiveCouplingStrength"]}
{"id": "C36", "title": "Series and parallel stacks combine resistances like circuits", "statement": "A series stack's resistance is the sum, a parallel stack's the reciprocal sum of reciprocals; with every junction between Rp and Rap the stack lies between n*Rp and n*Rap, respectively Rp/n and Rap/n, and series exceeds parallel.", "quantifier": "for any number of junctions and positive resistances (real arithmetic)", "why_tests_cant": "any number of junctions", "anchors": ["core/stack.hpp:SeriesStack::calculateStackResistance", "core/stack.hpp:ParallelStack::calculateStackResistance"]}
{"id": "C37", "title": "A stack without coupling is a set of independent junctions", "statement": "With zero coupling every junction of a stack follows the same magnetisation trajectory as when simulated alone with the stack's current driver set on all its layers.", "quantifier": "for every stack and number of steps (real arithmetic)", "why_tests_cant": "equality of whole trajectories for all mixes of junctions", "anchors": ["core/stack.hpp:Stack::runSimulation"]}
{"id": "C38", "title": "Stack logs are aligned", "statement": "After any sequence of runs and clears the columns of the stack log have equal length and every member junction got as many new rows as the stack.", "quantifier": "for every stack and sequence of operations", "why_tests_cant": "all histories", "anchors": ["core/stack.hpp:Stack::runSimulation", "core/stack.hpp:Stack::logStackData", "core/stack.hpp:Stack::clearLogs"]}
{"id": "C39", "title": "Group interaction validates its geometry and updates simultaneously", "statement": "A group is accepted exactly when there are as many positions as junctions, at least one, and all positions differ; each step computes every interaction field from the magnetisations before the step, so listing the junctions in another order only permutes the result.", "quantifier": "for every group, order and number of steps", "why_tests_cant": "all orders and sizes", "anchors": ["core/reservoir.hpp:GroupInteraction::GroupInteraction", "core/reservoir.hpp:GroupInteraction::stepFunctionalSolver", "core/reservoir.hpp:GroupInteraction::runSimulation"]}
{"id": "C40", "title": "Non-interacting groups evolve independently", "statement": "With the null interaction each member of a group follows the trajectory it has when simulated alone.", "quantifier": "for every group and number of steps (real arithmetic)", "why_tests_cant": "equality of whole trajectories", "anchors": ["core/reservoir.hpp:nullDipoleInteraction", "core/reservoir.hpp:GroupInteraction::runSimulation"]}
{"id": "C41", "title": "Dipole fields are physical", "statement": "The pair field is that of a point dipole: for every source m it is linear in m, symmetric under exchange of source and target (reciprocity), its tensor symmetric and traceless, even in the separation, decays with the cube of the distance; the two provided dipole functions agree.", "quantifier": "for all positions and magnetisations (real arithmetic)", "why_tests_cant": "identities over all geometries", "anchors": ["core/reservoir.hpp:computeDipoleInteraction", "core/reservoir.hpp:computeDipoleInteractionNoumra", "core/reservoir.hpp:getDipoleTensorFromRelPositions"]}
{"id": "C42", "title": "The reservoir couples each element to the right partners", "statement": "In a reservoir the dipole field at an element is the sum over all other elements of that element's own dipole tensor applied to that element's magnetisation scaled with its Ms; no element acts on itself.", "quantifier": "for every grid size, element and state", "why_tests_cant": "all grid sizes and indices", "anchors": ["core/reservoir.hpp:Reservoir::computeReservoirDipoleMatrix", "core/reservoir.hpp:Reservoir::computeDipoleInteraction", "core/reservoir.hpp:Reservoir::runSolver", "core/reservoir.hpp:Reservoir::getMatrixCoordinates"]}
{"id": "C43", "title": "LLGB longitudinal dynamics relax towards the equilibrium length", "statement": "In the LLGB right-hand side only the longitudinal term changes |m|; without other fields |m| grows below, shrinks above and is stationary at the equilibrium magnetisation for T < Tc; damping coefficients are non-negative with parallel not exceeding perpendicular below Tc and agree above Tc.", "quantifier": "for every layer, state and temperature (real arithmetic)", "why_tests_cant": "signs over all states", "anchors": ["core/llgb.hpp:LLGBLayer::solveLLG", "core/llgb.hpp:LLGBLayer::getAlphaParallel", "core/llgb.hpp:LLGBLayer::getAlphaPerpendicular", "core/llgb.hpp:LLGBLayer::getLongitudinal"]}
{"id": "C44", "title": "LLGB thermal noise influences the trajectory", "statement": "An LLGB simulation at non-zero temperature includes stochastic thermal fields.", "quantifier": "for every LLGB junction, temperature and noise realisation (real arithmetic)", "why_tests_cant": "absence of an effect cannot be tested by sampling one noise realisation", "anchors": ["core/llgb.hpp:LLGBLayer::adiabaticThermalField", "core/llgb.hpp:LLGBLayer::nonadiabaticThermalField", "core/llgb.hpp:LLGBJunction::eulerHeunSolverStep"]}
{"id": "C45", "title": "The Curie-Weiss iteration reports what it achieved", "statement": "The mean-field iteration always stops within its iteration limit; when it reports an error below the tolerance, the returned value is that close to its own image under the mean-field map's last iterate.", "quantifier": "for every parameter set and iteration limit", "why_tests_cant": "termination and residual for all inputs", "anchors": ["core/llgb.hpp:MFAWeissCurie", "core/llgb.hpp:langevin"]}
{"id": "C46", "title": "Buffered noise hands out the buffer in order", "statement": "Between refills the buffered noise returns every sample of its buffer exactly once in order, refills exactly every bufferSize ticks and never reads out of range; a zero-size buffer is rejected.", "quantifier": "for every buffer size and number of ticks", "why_tests_cant": "unbounded tick counts", "anchors": ["core/noise.hpp:BufferedAlphaNoise::tick", "core/noise.hpp:BufferedAlphaNoise::fillBuffer"]}
{"id": "C47", "title": "Vector noise acts on the requested axes with the requested strength", "statement": "Vector noise on all axes has magnitude |scale| (or is zero), on one axis is zero on the other two; axis none is rejected; 1/f noise from bounded sources is bounded by bias and scale and its state stays in range.", "quantifier": "for every noise realisation and number of ticks (real arithmetic)", "why_tests_cant": "all realisations", "anchors": ["core/noise.hpp:VectorAlphaNoise::tickVector", "core/noise.hpp:OneFNoise::tick", "core/noise.hpp:PinkNoise::tick"]}
{"id": "C48", "title": "Spherical/Cartesian conversions of VectorObj round-trip", "statement": "from_cartesian followed by get_cartesian gives the vector back; the other round trip gives the angles back on the documented range; adding two VectorObj adds their Cartesian vectors; the norm equals the magnitude.", "quantifier": "for all vectors and angles (real arithmetic)", "why_tests_cant": "all angles, quadrant edges", "anchors": ["cmtj/utils/general.py:VectorObj.from_cartesian", "cmtj/utils/general.py:VectorObj.get_cartesian", "cmtj/utils/general.py:VectorObj.__add__"]}
{"id": "C49", "title": "Field scans produce the advertised field vectors", "statement": "angle2vector/vector2angle are inverse on their range; every vector of a scan has the requested magnitude; scans have the requested number of points, endpoints included, and a forward-backward scan is a palindrome with 2n-1 points.", "quantifier": "for all angles, magnitudes and step counts (real arithmetic)", "why_tests_cant": "all step counts and angles", "anchors": ["cmtj/utils/linear.py:FieldScan.angle2vector", "cmtj/utils/linear.py:FieldScan.vector2angle", "cmtj/utils/linear.py:FieldScan.amplitude_scan", "cmtj/utils/linear.py:FieldScan.theta_scan", "cmtj/utils/linear.py:FieldScan.phi_scan"]}
{"id": "C50", "title": "The Python and C++ magnetoresistance formulas agree", "statement": "For unit magnetisations the Python GMR helpers give the same resistance as the C++ junction: Rp when parallel, Rap when antiparallel.", "quantifier": "for all unit vectors and resistances (real arithmetic)", "why_tests_cant": "agreement of two formulas everywhere", "anchors": ["cmtj/utils/resistance.py:compute_gmr", "cmtj/utils/resistance.py:calculate_magnetoresistance", "cmtj/utils/resistance.py:angular_calculate_resistance_gmr", "core/junction.hpp:Junction::calculateMagnetoresistance"]}
{"id": "C51", "title": "Parameter-space distribution yields every point exactly once with its own index", "statement": "distribute evaluates the function at every point of the product space exactly once and pairs each result with the index of its own point, whatever order the workers finish in and whether or not the work list is shuffled.", "quantifier": "for every list of parameter spaces, every completion order and every shuffle", "why_tests_cant": "all schedules of the worker pool", "anchors": ["cmtj/utils/parallel.py:distribute"]}
{"id": "C52", "title": "Coordinate descent returns the parameters that achieved its reported score", "statement": "The returned parameters, evaluated, give the returned best score, and the score is the best among all evaluations made.", "quantifier": "for every objective, starting point and step count", "why_tests_cant": "all objectives; aliasing of a dict is invisible in most runs", "anchors": ["cmtj/utils/optimization.py:coordinate_descent"]}
{"id": "C53", "title": "Root finder returns distinct roots inside the interval", "statement": "All roots returned lie in [start, stop], are pairwise at least the tolerance apart and were each reported by the underlying solver as converged.", "quantifier": "for every function and every solver behaviour", "why_tests_cant": "all solver behaviours", "anchors": ["cmtj/utils/solvers.py:RootFinder.find", "cmtj/utils/solvers.py:RootFinder.find_root", "cmtj/utils/solvers.py:RootFinder.add_to_roots"]}
{"id": "C54", "title": "Lorentzian line shapes have the documented peak, width and symmetry", "statement": "The symmetric Lorentzian peaks at the resonance with its amplitude and halves one linewidth away; the antisymmetric one is odd about the resonance with extrema plus/minus half its amplitude one linewidth away; the mixed curve is their sum.", "quantifier": "for all fields, widths and amplitudes (real arithmetic)", "why_tests_cant": "extremality over all fields", "anchors": ["cmtj/models/ensemble.py:symmetric_lorentz", "cmtj/models/ensemble.py:antisymmetric_lorentz", "cmtj/models/ensemble.py:mixed_lorentz"]}
{"id": "C55", "title": "Smit-Beljers layer bookkeeping is consistent", "statement": "A solver is accepted exactly when the ids are 0..n-1 in some order and every coupling list (the optional ones too, if given) has one entry per gap; each layer's neighbour references are mutual: what layer i sees above is what layer i+1 sees below, with the same constants; end layers see nothing outside.", "quantifier": "for every number of layers and coupling lists", "why_tests_cant": "all sizes and orders", "anchors": ["cmtj/models/general_sb.py:Solver.__post_init__", "cmtj/models/general_sb.py:Solver.get_layer_references"]}
{"id": "C56", "title": "The Smit-Beljers Hessian has Hermitian structure and gives the classic single-layer frequency", "statement": "The assembled matrix is symmetric apart from the imaginary precession terms, which enter with opposite signs; for one layer its determinant vanishes exactly at the frequency of the closed Smit-Beljers formula; frequencies do not depend on the layer thickness.", "quantifier": "for every energy function and number of layers", "why_tests_cant": "any size, all second derivatives", "anchors": ["cmtj/models/general_sb.py:general_hessian_functional", "cmtj/models/general_sb.py:Solver.create_energy_hessian", "cmtj/models/general_sb.py:Solver.single_layer_resonance"]}
{"id": "C57", "title": "The gradient-descent equilibrium searches terminate", "statement": "Adam and AMSGrad descent stop after at most max_steps updates for every gradient function, evaluate the gradient at most max_steps+1 times, and when they stop early the last update was below the tolerance.", "quantifier": "for every gradient function, start and limits", "why_tests_cant": "termination for all inputs", "anchors": ["cmtj/models/general_sb.py:Solver.adam_gradient_descent", "cmtj/models/general_sb.py:Solver.amsgrad_gradient_descent"]}
{"id": "C58", "title": "Oersted region currents add up to the requested current", "statement": "Setting a region's current distributes exactly that current over the blocks of the region and changes no other block; the field at a block is the sum over all other blocks of the line-current field.", "quantifier": "for every structure size and region", "why_tests_cant": "all sizes and regions", "anchors": ["cmtj/models/oersted.py:Structure.set_region_I_idx", "cmtj/models/oersted.py:Structure.compute_blocks", "cmtj/models/oersted.py:Block.ampere_law"]}
{"id": "C59", "title": "Domain-wall velocities are logged per layer", "statement": "The logged velocity of each layer is the displacement of that layer's own wall over the step divided by the step.", "quantifier": "for every state and step, one or two layers", "why_tests_cant": "all states", "anchors": ["cmtj/models/domain_dynamics.py:MultilayerWallDynamics.run"]}
{"id": "C60", "title": "Detrending removes the median along the chosen axis", "statement": "After detrend_axis the median along the chosen axis is zero for every row (column); doing it twice changes nothing.", "quantifier": "for every matrix (real arithmetic)", "why_tests_cant": "all shapes and values", "anchors": ["cmtj/utils/filters.py:Filters.detrend_axis"]}
{"id": "C61", "title": "Resistance combinations agree with circuit laws", "statement": "The parallel/series resistance helpers of the Python library combine the per-layer resistances by reciprocal sum and by sum, for any number of layers and time points, agreeing with the C++ strip model on Rxx for equal geometry factors.", "quantifier": "for every number of layers and samples (real arithmetic)", "why_tests_cant": "any number of layers", "anchors": ["cmtj/utils/resistance.py:calculate_resistance_parallel", "cmtj/utils/resistance.py:calculate_resistance_series", "cmtj/utils/resistance.py:compute_resistance"]}
{"id": "C62", "title": "unpack_ndim_map lists every cell of the map once", "statement": "Unpacking an N-dimensional map yields each cell exactly once together with its axis coordinates.", "quantifier": "for every map and axes", "why_tests_cant": "all shapes", "anchors": ["cmtj/utils/plotting.py:unpack_ndim_map"]}
{"id": "C63", "title": "Spin-diode procedure can read a junction's resistance", "statement": "For every junction accepted by the library with at most two layers the Rz read-out of the spin-diode procedure finds the resistance column that the junction logs.", "quantifier": "for every junction with classic MR", "why_tests_cant": "all layer ids", "anchors": ["cmtj/utils/procedures.py:VSD_procedure", "cmtj/utils/procedures.py:simulate_VSD", "core/junction.hpp:Junction::logLayerParams"]}
{"id": "C64", "title": "Dipole fields act with the same sign in groups and reservoirs", "statement": "A dipole field h computed for a layer shifts its effective field by +h, in a group (through the reserved field) and in a reservoir (through dipole injection) alike.", "quantifier": "for every layer, time, magnetisation and field (real arithmetic)", "why_tests_cant": "holds or fails for all states at once; a test of one trajectory does not show the sign", "anchors": ["core/reservoir.hpp:Reservoir::runSolver", "core/reservoir.hpp:GroupInteraction::stepFunctionalSolver", "core/junction.hpp:Layer::calculateHeffDipoleInjection"]}
{"id": "C65", "title": "The Langevin function and the mean-field Curie temperature", "statement": "For positive arguments langevin is coth x - 1/x and langevinDerivative its derivative; the function is strictly increasing with values in (0,1) and slope in (0,1/3]; hence the mean-field equation m = L(J0 m / kT) has a positive solution exactly when T < J0/(3k), the Curie temperature.", "quantifier": "for every positive argument, temperature and exchange constant (real arithmetic)", "why_tests_cant": "a statement about a function on a continuum and about non-existence of solutions", "anchors": ["core/llgb.hpp:langevin", "core/llgb.hpp:langevinDerivative", "core/llgb.hpp:MFAWeissCurie"]}
{"id": "C66", "title": "LLGB logs are complete, aligned and dated", "statement": "For distinct layer ids, after any sequence of calls on an LLGB junction all log columns have the same length, the columns are the nine per layer plus time, saving writes every row, clearing empties; a run appends one row per sampled step holding the state after that step and the clock, and the temperature and anisotropy of a row are those at the row's time.", "quantifier": "for every junction, call sequence, run length and sampling", "why_tests_cant": "unbounded call histories and all id strings", "anchors": ["core/llgb.hpp:LLGBJunction::logLayerParams", "core/llgb.hpp:LLGBJunction::runSimulation", "core/llgb.hpp:LLGBJunction::saveLogs", "core/llgb.hpp:LLGBJunction::clearLog"]}
{"id": "C67", "title": "LLGB setters reach exactly the addressed layers", "statement": "A setter of an LLGB junction changes one parameter of the layers with the given id (of all layers for \"all\") and nothing else; an id no layer has raises an exception and changes nothing.", "quantifier": "for every junction, id and value", "why_tests_cant": "all stacks and ids", "anchors": ["core/llgb.hpp:LLGBJunction::scalarlayerSetter", "core/llgb.hpp:LLGBJunction::axiallayerSetter", "core/llgb.hpp:LLGBJunction::setLayerEquilibriumMagnetisation", "core/llgb.hpp:LLGBJunction::setLayerSusceptibility"]}
{"id": "C70", "title": "Coloured noise is the white noise filtered by the fractional integrator", "statement": "A filled noise buffer is the convolution of the white samples with the weights h0 = 1, hk = h(k-1)(k-1+alpha/2)/k (exponent alpha); in particular alpha = 0 returns the white samples, alpha = 2 their running sums; the buffer is linear in the white samples.", "quantifier": "for every buffer length, exponent and white sequence (real arithmetic, exact transform)", "why_tests_cant": "all lengths, exponents and sequences; noise output has no reference value to compare with", "anchors": ["core/noise.hpp:BufferedAlphaNoise::fillBuffer"]}
{"id": "C68", "title": "Group runs log every member at the same instants", "statement": "A successful group run appends to the log of every member one row per sampled step with the time of the step and the member's magnetisations after it; logs stay aligned whatever calls are made; clearing empties all member logs and changes nothing else; a log is returned for each valid number and only for those.", "quantifier": "for every group, interaction function, call sequence, run length and sampling", "why_tests_cant": "unbounded histories, arbitrary interaction functions", "anchors": ["core/reservoir.hpp:GroupInteraction::runSimulation", "core/reservoir.hpp:GroupInteraction::clearLogs", "core/reservoir.hpp:GroupInteraction::getLog"]}
{"id": "C69", "title": "Reservoir logs and setters address the right elements", "statement": "After any client program the reservoir log has the columns time and m_row_col_x/y/z for every element, all of the same length and with distinct names; a run appends one row per step with the time and the magnetisation of each element after the step; saving writes these rows; a setter changes the addressed element (or all) and nothing else; clearing changes only the log.", "quantifier": "for every reservoir size, call sequence and run length", "why_tests_cant": "unbounded histories and sizes", "anchors": ["core/reservoir.hpp:Reservoir::logReservoirkData", "core/reservoir.hpp:Reservoir::runSimulation", "core/reservoir.hpp:Reservoir::saveLogs", "core/reservoir.hpp:Reservoir::setAllExternalField", "core/reservoir.hpp:Reservoir::setLayerExternalField", "core/reservoir.hpp:Reservoir::setLayerAnisotropy", "core/reservoir.hpp:Reservoir::getMagnetisation"]}
{"id": "C71", "title": "Linearised resistance is the first-order change of the resistance", "statement": "The linearised series and parallel resistances are the directional derivative of the corresponding resistance expression along the given angle changes, and the second returned value is that expression at the stationary angles.", "quantifier": "for all angles, angle changes and resistance constants (real arithmetic; for the parallel one where its denominator is not zero)", "why_tests_cant": "a derivative holds at every point and direction", "anchors": ["cmtj/utils/resistance.py:calculate_linearised_resistance_series", "cmtj/utils/resistance.py:calculate_linearised_resistance_parallel"]}
{"id": "C72", "title": "The second-harmonic angular model has the symmetries of a rotating magnetisation", "statement": "meinert_model repeats after 360 degrees, reverses about its offset after 180 degrees, is even about the phase offset, and takes the values offset, V1-V2+offset and -(V1+2 V2)/4+offset a quarter turn from, at and 60 degrees from the phase offset.", "quantifier": "for all angles and parameters (real arithmetic)", "why_tests_cant": "identities over all angles", "anchors": ["cmtj/models/ensemble.py:meinert_model"]}
{"id": "C73", "title": "Oersted blocks act at the distance of their centres", "statement": "The distance that enters Ampere's law for two blocks is the distance between the centres of their cells, so the field at one block is that of a wire at the other block's centre.", "quantifier": "for all cells and cell sizes (real arithmetic)", "why_tests_cant": "a geometric identity over all cells", "anchors": ["cmtj/models/oersted.py:Block.__post_init__", "cmtj/models/oersted.py:Block.ampere_law"]}
{"id": "C74", "title": "Region contributions in the Oersted model are consistent", "statement": "The field that computing the blocks adds to a region equals the contribution of the whole structure to that region, and contributions of adjacent source regions add up.", "quantifier": "for every structure, region and split", "why_tests_cant": "all sizes and regions", "anchors": ["cmtj/models/oersted.py:Structure.compute_region_contribution_idx", "cmtj/models/oersted.py:Structure.get_region_contributions_idx"]}
{"id": "C75", "title": "The domain-wall equations have the textbook limits", "statement": "A wall in steady motion under a perpendicular field moves at Q*gamma*H*Delta/alpha; an undriven Neel wall (and without DMI a Bloch wall) rests; the statically relaxed width is the unique stable rest point of the dynamic width equation; the coupling of two walls is mutual; more than two walls are refused.", "quantifier": "for all parameters and states (real arithmetic)", "why_tests_cant": "identities over all parameters", "anchors": ["cmtj/models/domain_dynamics.py:compute_dynamics", "cmtj/models/domain_dynamics.py:MultilayerWallDynamics.multilayer_dw_llg", "cmtj/models/domain_dynamics.py:MultilayerWallDynamics.run"]}
{"id": "C76", "title": "Pinning and edge fields are gradients of their potentials", "statement": "The pinning field is -1/(2 mu0 Ms Ly Lz) times the slope of V0 sin^2(pi X/p), repeats with period p and vanishes at multiples of p/2; the edge field is minus the slope of V0 cosh^6((X-Lx/2)/(Lx/2)).", "quantifier": "for all positions and parameters (real arithmetic)", "why_tests_cant": "a derivative holds at every point", "anchors": ["cmtj/models/domain_dynamics.py:get_pinning_field", "cmtj/models/domain_dynamics.py:get_edge_field"]}
{"id": "C77", "title": "LLGB layers are checked and integrated as documented", "statement": "The layer constructor refuses zero volume, magnetisation and axis and stores volume = surface times thickness; a Heun step is the explicit trapezoidal step and an Euler-Heun step the explicit Euler step of the Landau-Lifshitz-Bloch equation of each layer; any other solver mode is refused and leaves the junction unchanged.", "quantifier": "for all layers, states and step lengths (real arithmetic)", "why_tests_cant": "all states and parameters", "anchors": ["core/llgb.hpp:LLGBLayer::LLGBLayer", "core/llgb.hpp:LLGBJunction::heunSolverStep", "core/llgb.hpp:LLGBJunction::eulerHeunSolverStep", "core/llgb.hpp:LLGBJunction::getSolver"]}
{"id": "C78", "title": "The Smit-Beljers energy is the documented functional", "statement": "The energy of a stack is the sum over layers of thickness times (Zeeman, demagnetisation, in-plane and surface anisotropy, DMI-field energy density) plus, per gap, bilinear and biquadratic exchange, interlayer DMI and the dipole energy, each constant at its own gap.", "quantifier": "for every stack that the constructor accepts, field and position (real arithmetic)", "why_tests_cant": "identity over all stacks and positions", "anchors": ["cmtj/models/general_sb.py:Solver.create_energy", "cmtj/models/general_sb.py:LayerSB.no_interaction_symbolic_energy"]}
{"id": "C79", "title": "Energies seen by one layer and by the stack give the same torque", "statement": "The energy of a layer with its neighbours differs from the energy of the whole stack by terms that do not depend on that layer's angles, so gradients in its angles agree.", "quantifier": "for every stack, layer and position", "why_tests_cant": "derivatives at all positions", "anchors": ["cmtj/models/general_sb.py:LayerSB.total_symbolic_layer_energy", "cmtj/models/general_sb.py:Solver.create_energy"]}
{"id": "C80", "title": "The Smit-Beljers energy has the symmetries of the physics", "statement": "Without DMI field the energy is unchanged when field and magnetisations are reversed; for demagnetisation and dipole tensors symmetric about z it is unchanged when everything turns about z; it is unchanged when the stack is turned upside down (gap constants reversed, interlayer DMI negated).", "quantifier": "for every stack, field, position and angle", "why_tests_cant": "universally quantified symmetries", "anchors": ["cmtj/models/general_sb.py:Solver.create_energy"]}
{"id": "C81", "title": "The spherical dynamics are the Landau-Lifshitz-Gilbert equation", "statement": "The angular velocities of a dynamic layer are the components of the Landau-Lifshitz-Gilbert equation in the effective field derived from the energy, they dissipate energy at the Gilbert rate, and the spin torques enter as torques of the Gilbert equation.", "quantifier": "for all layers, fields and positions (real arithmetic)", "why_tests_cant": "identities over all parameters", "anchors": ["cmtj/models/general_sb.py:LayerDynamic.rhs_spherical_llg", "cmtj/models/general_sb.py:LayerDynamic.torque"]}
{"id": "C82", "title": "Rest points of the dynamics are the stationary points of the energy", "statement": "Without spin torque, all right-hand sides vanish at a position exactly when the gradient used by the descent vanishes there.", "quantifier": "for every stack and position off the poles", "why_tests_cant": "all positions", "anchors": ["cmtj/models/general_sb.py:Solver.compose_llg_jacobian", "cmtj/models/general_sb.py:Solver.get_gradient_expr"]}
{"id": "C83", "title": "Dynamic frequencies and modes come from the linearised equations", "statement": "Row 2i and 2i+1 of the Jacobian are the derivatives of layer i's right-hand sides in all angles; at an equilibrium they are built from the energy's second derivatives; for one layer trace and determinant are those of the Smit-Beljers formula; frequencies are the positive imaginary parts over 2 pi, and each comes with its eigenvector.", "quantifier": "for every stack and position", "why_tests_cant": "all stacks, positions and eigenvalue lists", "anchors": ["cmtj/models/general_sb.py:Solver.compose_llg_jacobian", "cmtj/models/general_sb.py:Solver.dynamic_layer_solve"]}
{"id": "C84", "title": "A field scan yields one result per field and leaves the fields alone", "statement": "analytical_field_scan yields, in order, one equilibrium, frequencies and field per given field, each equilibrium searched from the previous one; the caller's field objects are unchanged.", "quantifier": "for every list of fields, start, descent and root oracle", "why_tests_cant": "any list and oracle", "anchors": ["cmtj/models/general_sb.py:Solver.analytical_field_scan"]}
{"id": "C85", "title": "The linearised spin-diode response solves the driven linear equations", "statement": "The returned complex amplitude solves i*omega*X = J X + V where J is the Jacobian of the dynamics and V their derivative in the excited variable times the excitation, for either cache mode.", "quantifier": "for every stack, field, frequency and excitation", "why_tests_cant": "all parameters", "anchors": ["cmtj/models/general_sb.py:Solver.linearised_N_spin_diode", "cmtj/models/general_sb.py:Solver._compute_A_and_V_matrices"]}
{"id": "C86", "title": "Equal Smit-Beljers layers are interchangeable", "statement": "Layers that compare equal have the same energy at all fields and positions.", "quantifier": "for all pairs of layers", "why_tests_cant": "all pairs", "anchors": ["cmtj/models/general_sb.py:LayerSB.__eq__", "cmtj/models/general_sb.py:LayerDynamic.__eq__"]}
{"id": "C87", "title": "A PIMM scan is a chain of pulse measurements with one record per field", "statement": "PIMM_procedure returns one record per field, in order; every measurement starts from the state the one before ended in, with an empty log, the scan field, a rectangular Oersted pulse and the magnetisations perturbed; each record holds the field, the resistances of the last samples, the moment-weighted average magnetisation of the final state and the spectrum after the waiting time; a scan of H1 ++ H2 equals the two scans one after the other.", "quantifier": "for every reachable junction, list of fields and set of arguments", "why_tests_cant": "all junction states and scans", "anchors": ["cmtj/utils/procedures.py:PIMM_procedure"]}
{"id": "C88", "title": "PIMM spectra are the amplitudes of the sampled signal", "statement": "The spectrum holds the absolute values of the discrete Fourier transform at the multiples of 1/(n dt) from 0 to the maximum frequency below half the sampling rate, one frequency per amplitude; a pure tone gives one line of height n|A|/2; the power adds up; layer spectra bound the spectrum of the sum.", "quantifier": "for every signal, time step and maximum", "why_tests_cant": "all signals and lengths", "anchors": ["cmtj/utils/procedures.py:compute_spectrum_strip", "cmtj/utils/procedures.py:PIMM_procedure"]}
{"id": "C89", "title": "The PIMM resistances are those of the magnetisations", "statement": "The resistances in a PIMM record are the resistance function applied to the layers' magnetisations.", "quantifier": "for every junction, field and resistance function", "why_tests_cant": "all junctions", "anchors": ["cmtj/utils/procedures.py:PIMM_procedure"]}
{"id": "C90", "title": "A spin-diode scan is a grid of chained measurements", "statement": "VSD_procedure returns one row per field and one column per frequency; each measurement starts where the one before ended, with the field, a sine of the given frequency and amplitude as Oersted field and the magnetisations perturbed; the value is the mean of the low-pass-filtered product of the resistance over time with the negative of the unit current of the same frequency, hence linear in the resistance.", "quantifier": "for every reachable junction, fields, frequencies, filter coefficients", "why_tests_cant": "all junction states and scans", "anchors": ["cmtj/utils/procedures.py:VSD_procedure", "cmtj/utils/resistance.py:compute_sd"]}
{"id": "C91", "title": "The spin-diode voltage is the lock-in mean of resistance and current", "statement": "calculateVoltageSpinDiode returns the mean over the rows from the first time not before minTime of resistance times a current sqrt(power/mean resistance) sin(2 pi f t); a resistance oscillating at the current's frequency over whole periods gives half amplitude times the cosine of its phase; the extreme resistances are those of these rows; an empty log, an unknown column and a minTime after the last row are refused and the log is not changed.", "quantifier": "for every log, column, frequency, power and minTime", "why_tests_cant": "all logs and lengths", "anchors": ["core/compute.hpp:calculateVoltageSpinDiode"]}
{"id": "C92", "title": "Spectra of a log hold the amplitude of every tone", "statement": "spectralFFT returns for each tag as many amplitudes and phases as frequencies k/(m dt); a tone with a whole number of periods gives its amplitude and phase at its frequency and 0 elsewhere; the entry at frequency 0 is the mean of the column; bad input is refused and the log is not changed.", "quantifier": "for every log, list of tags, minTime and time step", "why_tests_cant": "all logs and lengths", "anchors": ["core/compute.hpp:spectralFFT"]}
{"id": "C93", "title": "The mixed spectrum is the spectrum of the sum of the columns", "statement": "spectralFFTMixed returns the amplitudes of the sum of the given columns, one per frequency, whatever the order of the columns; for one column it agrees with spectralFFT; bad input is refused.", "quantifier": "for every log, list of tags and time step", "why_tests_cant": "all logs and lengths", "anchors": ["core/compute.hpp:spectralFFTMixed"]}
{"id": "C94", "title": "Energies from a log belong to the layers they are named after", "statement": "compute_from_log returns one column energy_<id>_<field> for every layer and logged field of a log with energies, holding for every row minus the scalar product of that layer's magnetisation and that field divided by the cell volume (the surface for interfacial fields).", "quantifier": "for every junction, sequence of calls that logs energies, layer ids and cell size", "why_tests_cant": "all logs and ids", "anchors": ["cmtj/utils/energy.py:EnergyCompute.compute_from_log"]}
{"id": "C95", "title": "The telegraph noise is the volume-weighted sum of the domains", "statement": "noise_model returns steps rows of dims numbers; every row is the volume-weighted sum of the values the domains have after that step plus the background of that step; a domain changes its value exactly in the steps its period (with its disturbance) divides; the counts are the numbers of these steps and saved vectors are the domains' values; volumes ascend and sum to 1 for the uniform distribution; functional periods ascend and are at least 1; oscillations together with thermal background are refused.", "quantifier": "for every number of domains, steps and components, every random draw and every argument", "why_tests_cant": "all histories of draws", "anchors": ["cmtj/models/noise.py:noise_model"]}
{"id": "C96", "title": "autocorrelation returns the normalised autocorrelation of the signal", "statement": "autocorrelation returns for the first n/2 lags k dT the sum of products of deviations from the mean of samples k apart, divided by the sum of the squared deviations: 1 at lag 0, never above 1 in modulus, unchanged by gain and offset.", "quantifier": "for every signal and time step", "why_tests_cant": "all signals and lengths", "anchors": ["cmtj/models/noise.py:autocorrelation"]}
{"id": "C97", "title": "The Butterworth filters apply the band asked for", "statement": "butter_lowpass_filter and butter_bandpass_filter return the response (at rest before the first sample) of the filter designed for the given edges relative to half the sampling frequency; only ratios of frequencies matter; the filters are linear, causal and commute with delays; errors of the design are passed on.", "quantifier": "for every data list, edges, sampling frequency and design function", "why_tests_cant": "all data and all designs", "anchors": ["cmtj/utils/filters.py:Filters.butter_bandpass_filter", "cmtj/utils/filters.py:Filters.butter_lowpass_filter"]}
{"id": "C98", "title": "The Python drivers have the documented shapes", "statement": "constant, sine, decay and Gaussian drivers: the sine is periodic, bounded by its amplitude and the same as the C++ sine driver with the same arguments; the decay loses the same factor in equal times and 1/e in tau; the Gaussian is even, falls monotonically and has the standard deviation sigma; zero widths are refused.", "quantifier": "for every time and parameters", "why_tests_cant": "all real arguments", "anchors": ["cmtj/models/drivers.py:sine_driver", "cmtj/models/drivers.py:decay_driver", "cmtj/models/drivers.py:gaussian_driver"]}
{"id": "C99", "title": "Axis names of the front end mean the same direction everywhere", "statement": "An axis selected in the application (x, y, z, xy, xz, yz) is turned into a vector, into polar and azimuthal angles and into an excitation axis, all along the named direction; other names raise; every computation that takes the selected field axis applies the field along it.", "quantifier": "for every string and every field", "why_tests_cant": "all names and fields", "anchors": ["view/simulation_fns.py:get_axis_cvector", "view/simulation_fns.py:get_axis_angles", "view/simulation_fns.py:get_axis", "view/simulation_fns.py:simulate_sb"]}
{"id": "C100", "title": "The front end simulates the junction that was entered", "statement": "One layer per entry, in order, with distinct ids; all values converted to SI units; magnetisation along the easy axis; neighbours coupled by the entered constants and no others; resistance parameters one set per layer; the pulse and spin-diode measurements are called with the selected fields, axes, times and excitation.", "quantifier": "for every number of layers and every values of the page", "why_tests_cant": "all pages", "anchors": ["view/simulation_fns.py:prepare_simulation", "view/simulation_fns.py:create_single_layer", "view/simulation_fns.py:get_pimm_data", "view/simulation_fns.py:get_vsd_data"]}
{"id": "C101", "title": "A fit varies exactly the parameters that are not fixed, within their bounds", "statement": "get_config puts every parameter of the page either into the search space with its lower and upper bound or into the fixed ones with its value; each once; lower and upper bound are exchanged if entered the wrong way round; the setup of the fit returns for every filled page.", "quantifier": "for every number of layers, texts and check boxes", "why_tests_cant": "all pages", "anchors": ["view/autofit.py:get_config", "view/autofit.py:get_fixed_arguments_from_state", "view/autofit.py:hebo_fit"]}
{"id": "C102", "title": "The Smit-Beljers sweep of the front end uses the entered layers and fields", "statement": "Each layer has the easy axis selected, the anisotropy, saturation and thickness entered, in SI units; the sweep solves the stack at every field of the scan, starting where the field before ended, and lists for each field its frequencies; the page and the fit compute the same sweep from the same values.", "quantifier": "for every stack, scan and solver", "why_tests_cant": "all stacks", "anchors": ["view/simulation_fns.py:simulate_sb", "view/simulation_fns.py:simulate_sb_wrapper"]}
{"id": "C103", "title": "The error of a fit compares every field with its own target", "statement": "compute_sb_mse is infinite when there are fewer frequencies than targets, else the sum over the fields of the smallest squared distance between a frequency of that field and the target of that field, so 0 for a perfect fit.", "quantifier": "for every list of targets and entries", "why_tests_cant": "all data", "anchors": ["view/simulation_fns.py:compute_sb_mse"]}
{"id": "C104", "title": "Data files are read row by row", "statement": "read_data and read_mh_data return the fields and the values of all rows in order; comments, blank lines and the kind of white space do not matter; a word that is no number is an error.", "quantifier": "for every file", "why_tests_cant": "all files", "anchors": ["view/helpers.py:read_data", "view/helpers.py:read_mh_data"]}
{"id": "C105", "title": "extract_max_resonance_lines gives the frequencies of the largest extrema", "statement": "For every field the frequencies of the N largest extrema of the spectrum, filled up with None.", "quantifier": "for every spectrum", "why_tests_cant": "all spectra", "anchors": ["view/utils.py:extract_max_resonance_lines"]}
{"id": "C106", "title": "The domain mixture is the area-weighted average of independent domains", "statement": "simulate_domains returns for every page within its limits; one entry per field of the scan; every field starts where the one before ended; a domain's magnetisation is the average over the last samples and does not depend on the other domains; the mixture is the average weighted by area, at most of length 1.", "quantifier": "for every number of domains, every page within the limits and every scan", "why_tests_cant": "all pages and runs", "anchors": ["view/domain.py:simulate_domains", "view/simulation_fns.py:create_single_domain"]}
{"id": "C107", "title": "The Python module takes calls as its type stubs document", "statement": "Every function of the stubs takes positional and keyword arguments as documented, with the documented defaults, and calls the C++ function its name stands for.", "quantifier": "for every documented function and every call", "why_tests_cant": "all calls of all functions: positional and keyword arguments in any combination", "anchors": ["python/cmtj.cpp:PYBIND11_MODULE", "cmtj/__init__.pyi", "cmtj/stack/__init__.pyi", "cmtj/reservoir/__init__.pyi"]}
{"id": "C108", "title": "An overloaded function runs the overload that the arguments fit", "statement": "No call fits two overloads; a call is taken exactly if it fits some overload, and runs that one.", "quantifier": "for every bound function and every call", "why_tests_cant": "all values and all pairs of overloads", "anchors": ["python/cmtj.cpp:PYBIND11_MODULE"]}
{"id": "C109", "title": "A CVector is a Python sequence of its three components", "statement": "Its length is 3, its items are x, y, z, it can be iterated and unpacked, negative indices count from the end, and other indices raise IndexError.", "quantifier": "for every vector and index", "why_tests_cant": "all vectors", "anchors": ["python/cmtj.cpp:PYBIND11_MODULE", "core/cvector.hpp:operator[]"]}
{"id": "C110", "title": "Lists stand for vectors and module-level names for their enumeration", "statement": "A list of three numbers is taken wherever a CVector is expected, as the declared implicit conversions say; the names of the enumerations exported into the module stand for their members.", "quantifier": "for every function, parameter and list", "why_tests_cant": "all functions and lists", "anchors": ["python/cmtj.cpp:implicitly_convertible", "python/cmtj.cpp:export_values"]}
{"id": "C111", "title": "Runs converge to the exact solution with the order of their solver", "statement": "For a smooth, noise-free system the magnetisation after a run of duration t differs from the exact solution of the LLG equation at t by at most a constant times dt^p: p = 4 for RK4, 2 for Heun, 1 for Euler-Heun; the exact solution exists and is unique.", "quantifier": "for every junction without fluctuations and with smooth drivers, every duration and every small enough time step", "why_tests_cant": "an asymptotic statement about all step sizes and the exact solution, which no run produces", "anchors": ["core/junction.hpp:runSimulation", "core/junction.hpp:rk4_step", "core/junction.hpp:heunSolverStep", "core/junction.hpp:eulerHeunSolverStep", "core/junction.hpp:runMultiLayerSolver"]}
{"id": "C112", "title": "LLGB runs converge to the solution of the Landau-Lifshitz-Bloch equation", "statement": "For smooth drivers away from the Curie temperature the magnetisations after a run of duration t differ from the exact solution of the Landau-Lifshitz-Bloch equation by at most a constant times dt^p: p = 2 for the Heun solver, 1 for Euler-Heun.", "quantifier": "for every LLGB junction, every curve solving its equations of motion, every duration and every small enough time step", "why_tests_cant": "an asymptotic statement about all step sizes and the exact solution, which no run produces", "anchors": ["core/llgb.hpp:runSimulation", "core/llgb.hpp:heunSolverStep", "core/llgb.hpp:eulerHeunSolverStep"]}
{"id": "C113", "title": "The energy columns record the fields of the logged row", "statement": "With calculateEnergies a run logs per row and layer the anisotropy, the couplings, the external field, the current, and the anisotropy, demagnetising, exchange, torque and thermal fields, each taken at the time and magnetisations of that row.", "quantifier": "for every reachable junction with distinct layer names, every duration, time step, write frequency and solver", "why_tests_cant": "which of several solver stages last wrote a member is invisible when drivers are slow or the state is near rest", "anchors": ["core/junction.hpp:logLayerParams", "core/junction.hpp:calculateHeff", "core/junction.hpp:runSimulation"]}
{"id": "C114", "title": "A stochastic step adds the noise field scaled by the root of the time step", "statement": "One Euler-Heun step maps the magnetisation m to m + dt f(m) + sqrt(dt) (g(m) + g(m + sqrt(dt) g(m))) / 2, where f is the equation of motion and g the torque of the noise field. One Heun step averages f and g over m and the predictor m + dt f(m) + sqrt(dt) g(m), f of the predictor being taken at t + dt. Both then normalise. The noise field is the thermal field built from three fresh normal draws per step and layer, and both evaluations of g use the same field.", "quantifier": "for every junction, every layer with temperature noise, every state, time, time step and every sequence of draws", "why_tests_cant": "a wrong power of dt or a reused draw changes only the statistics of a run", "anchors": ["core/junction.hpp:eulerHeunSolverStep", "core/junction.hpp:stochasticTorque", "core/junction.hpp:getStochasticLangevinVector", "core/junction.hpp:heunSolverStep"]}
{"id": "C115", "title": "The thermal field is white Gaussian noise with the documented variance", "statement": "If the draws of a layer are independent standard normals, then the components of its thermal field over all steps of a run are independent, and each is normal with mean 0 and variance 2 alpha kB T / (gamma0 Ms V).", "quantifier": "for every layer, temperature driver and all steps of a run", "why_tests_cant": "a statement on a probability law; tests see finitely many samples", "anchors": ["core/junction.hpp:getStochasticLangevinVector", "core/junction.hpp:getLangevinStochasticStandardDeviation"]}
{"id": "C116", "title": "A configured layer moves by what was set last", "statement": "A layer built by the plain, SOT or STT constructor and then configured by any sequence of setter calls moves by the Gilbert equation with the constructor's magnetisation, anisotropy axis, Ms, thickness and damping, the effective field of the drivers set last, and the torque of its kind with the current set last. A driver that was never set contributes zero. No setter changes a term it does not name.", "quantifier": "for every constructor argument, every sequence of setter calls, every state, time and neighbour", "why_tests_cant": "seventeen setters and three constructors give too many orders to test, and a wrong default is hidden whenever the test sets the member", "anchors": ["core/junction.hpp:Layer", "core/junction.hpp:LayerSOT", "core/junction.hpp:LayerSTT", "core/junction.hpp:calculateLLGWithFieldTorque"]}
{"id": "C117", "title": "Rounding does not spoil unit length", "statement": "In floating point arithmetic with unit roundoff u the magnetisation after every step has length 1 up to 4u, or is zero. The error does not grow with the number of steps.", "quantifier": "for every floating point format with u at most 1/30 in the standard model, every junction, solver, noise, duration and time step", "why_tests_cant": "the bound holds for all states and all lengths of runs", "anchors": ["core/cvector.hpp:normalize", "core/cvector.hpp:length", "core/junction.hpp:runSimulation"]}
{"id": "C118", "title": "The number of steps is the quotient of the arguments", "statement": "A run of duration T in steps of dt makes T/dt steps, whole steps being counted. In floating point arithmetic this holds up to the rounding error of the quotient.", "quantifier": "for every floating point format in the standard model, every duration and time step", "why_tests_cant": "a missing last step is seen only for those arguments whose quotient rounds down", "anchors": ["core/junction.hpp:runSimulation"]}
{"id": "C119", "title": "The optimiser is shown every suggestion with its own error", "statement": "hebo_optimization_loop leads the optimiser through n_iters rounds. In each round every suggestion is simulated with the suggested and the fixed parameters, and the optimiser observes the suggestions in order, each with its own error, whatever the order in which the processes finish. The reported errors fall and the last one is the least of all. A round without suggestions is a ValueError, a suggestion that names a fixed parameter a TypeError, and the exception of the first failing suggestion reaches the caller.", "quantifier": "for every optimiser, function, error function, parameters, number of rounds and suggestions, and every order of completion", "why_tests_cant": "a permuted error vector still looks like a fit; the order of completion depends on the machine", "anchors": ["cmtj/utils/optimization.py:multiprocess_simulate", "cmtj/utils/optimization.py:hebo_optimization_loop"]}
{"id": "C120", "title": "A fit of the front end returns the optimiser with everything it observed", "statement": "hebo_fit returns the optimiser after all rounds together with the simulation of its best parameters. If it is interrupted, it returns the optimiser with the rounds made so far.", "quantifier": "for every optimiser, simulation, error function, parameters and number of rounds, and every point of interruption", "why_tests_cant": "interruptions are not part of tests", "anchors": ["view/autofit.py:hebo_fit"]}
{"id": "C121", "title": "Runs in finite precision tend to the run in exact arithmetic", "statement": "Take a noise-free junction and the arguments of a run in arithmetics whose relative rounding errors tend to zero. If total/dt and writeFrequency/dt are not integers and the exact run meets no jump of a driver, no pole of the torque and no zero magnetisation, then the rounded runs eventually succeed with the same number of steps and rows, and every logged time and magnetisation and every final magnetisation tends to the exact one, for all solvers.", "quantifier": "for every stack, every family of arithmetics with relative rounding errors, every duration, step and write interval and every solver", "why_tests_cant": "a test runs in one precision; agreement of two precisions at some inputs says nothing about other inputs", "anchors": ["core/junction.hpp:runSimulation", "core/junction.hpp:rk4_step", "core/junction.hpp:heunSolverStep", "core/drivers.hpp:getCurrentScalarValue"]}
{"id": "C122", "title": "The caches of the Smit-Beljers solver never serve an old energy", "statement": "Every call of create_energy and of total_symbolic_layer_energy returns the energy of the solver or layer as it is at that moment, whatever fields were edited since the results in the cache were stored; the caches hold at most three results.", "quantifier": "for every program of edits and calls, every number of solvers and layers sharing the cache", "why_tests_cant": "a test edits one field between two calls; staleness depends on which fields enter the hash and on the whole history of the cache", "anchors": ["cmtj/models/general_sb.py:Solver.create_energy", "cmtj/models/general_sb.py:LayerSB.total_symbolic_layer_energy", "cmtj/models/general_sb.py:LayerSB.__hash__", "cmtj/models/general_sb.py:Solver.__eq__", "cmtj/utils/general.py:VectorObj.__hash__"]}
{"id": "C123", "title": "A stack that is left alone relaxes", "statement": "Without spin torques and noise, in constant fields and with mutual couplings, the energy of a stack falls at the rate sum of gamma alpha/(1+alpha^2) Ms d |m x H|^2 and is constant without damping; the torque on every damped layer tends to zero as time passes. Simulated states follow: their energy exceeds that of the start by at most C dt^p, and from some time on their torques are below any given tolerance for small enough time steps.", "quantifier": "for every number of layers, all parameters, fields, demagnetisation and coupling tensors, all solvers, all durations", "why_tests_cant": "a test sees one relaxation; a wrong factor or sign in one field term or in one neighbour shows up only in stacks that keep moving or gain energy slowly", "anchors": ["core/junction.hpp:Layer::calculateHeff", "core/junction.hpp:Layer::calculateLLGWithFieldTorque", "core/junction.hpp:Junction::runSimulation"]}
{"id": "C124", "title": "The Smit-Beljers model and the simulation describe the same stack", "statement": "Give a stack to the Python solver (angles, Ms in A/m) and to the C++ simulation (vectors, Ms in T) with the same parameters (demagnetisation rescaled by the ratio of the two values of mu0 in the code): the energies agree in every position, the slopes of the solver's energy in the angles of a layer are the tangent components of the field the simulation computes for it, both have the same equilibria, a relaxed simulation ends where the solver's energy is stationary up to any tolerance, and the two equations of motion turn the layers alike up to the fixed ratio of their gyromagnetic constants.", "quantifier": "for every number of layers, all parameters, fields and exchange couplings, all positions, all integrators", "why_tests_cant": "the two parts are written in different languages with different units and sign conventions; tests compare each with itself or one spectrum by eye", "anchors": ["cmtj/models/general_sb.py:Solver.create_energy", "cmtj/models/general_sb.py:LayerDynamic.rhs_spherical_llg", "core/junction.hpp:Layer::calculateHeff", "core/junction.hpp:Layer::calculateLLGWithFieldTorque"]}
{"id": "C125", "title": "The frequencies of the Smit-Beljers solver are those at which the simulated stack precesses", "statement": "At an equilibrium of an undamped stack, a frequency is a root of the determinant of the solver exactly when the equation of motion of the C++ simulation, linearised about that equilibrium, has a small circular precession of all layers with it: angular frequency 220880/(28024e6 * 12.566e-7) = 6.2723 times the root. For one film along an in-plane field this is the Kittel formula for the simulation.", "quantifier": "for every number of layers, all parameters, fields, exchange couplings, equilibria away from the poles, and all frequencies", "why_tests_cant": "tests compare spectra of the two parts by eye at single parameter sets; a wrong entry of the Hessian shifts the lines a little", "anchors": ["cmtj/models/general_sb.py:Solver.create_energy_hessian", "cmtj/models/general_sb.py:LayerSB", "core/junction.hpp:Layer::calculateLLGWithFieldTorque", "core/junction.hpp:Layer::calculateHeff"]}
{"id": "C126", "title": "A layer switches at the field and current that the macrospin theory gives", "statement": "For a single layer whose field, anisotropy, demagnetisation and polariser share an axis, simulations end where the theory says: on the easy axis in the field direction above the field 2K/Ms - (N-n)Ms/mu0 and on their side of the barrier below it, on a hard axis at h/|k|; a state antiparallel to the polariser is stable below and unstable above the spin torque alpha (k - h), for spin-transfer and spin-orbit torques. Switching is exponential with the rate 2 gamma/(1+alpha^2) times the push.", "quantifier": "for all fields, anisotropies, demagnetisation factors, currents, damping, start directions and solvers, with any small enough time step", "why_tests_cant": "hysteresis loops and switching currents are the everyday use of the program, but a test sees single points of one loop with one step size", "anchors": ["core/junction.hpp:Layer::calculateHeff", "core/junction.hpp:Layer::solveLLG", "core/junction.hpp:Junction::runSimulation"]}
{"id": "C127", "title": "The coloured noise requested for a layer is the noise its runs use", "statement": "setAlphaNoise accepts exactly the exponents from 0 to 2 and otherwise changes nothing. After an accepted request every run uses noise of the requested strength along the requested axis: step i takes sample i of a sequence generated for this run, with the Heun and with the Euler-Heun solver alike; no sample is used twice, none is left out, and the next run has a sequence of its own. Runs of at least one step complete.", "quantifier": "for all junctions, layers, noise parameters, numbers of steps, requested solvers and random sequences", "why_tests_cant": "noise hides an off-by-one in the use of samples, a lost axis or a replayed sequence: statistics over a run still look right", "anchors": ["core/junction.hpp:Layer::setAlphaNoise", "core/junction.hpp:Layer::createBufferedAlphaNoise", "core/junction.hpp:Layer::getOneFVector", "core/junction.hpp:Junction::getSolver", "core/noise.hpp:VectorAlphaNoise"]}
{"id": "C128", "title": "The energy functions give the energy that the simulation dissipates", "statement": "The Zeeman, anisotropy, exchange and demagnetisation energies of EnergyDriver add up, for unit magnetisations and the saturation magnetisation in A/m, to the area times the energy whose decay the simulation follows, plus a constant: while a stack is left alone the sum falls at the rate of the dissipated power and never rises.", "quantifier": "for all stacks without biquadratic and dipole coupling, all magnetisations and all motions of them", "why_tests_cant": "a wrong factor or unit in one of four energies leaves each of them plausible by itself; only their common derivative along all motions fixes them", "anchors": ["core/junction.hpp:EnergyDriver"]}
{"id": "C129", "title": "Domain walls without currents lose energy", "statement": "For one wall and for two coupled walls without current and Rashba field, and a width that is not relaxed dynamically, the energy of anisotropy, field, DMI, pinning, edges and coupling falls along every solution of the wall equations, at the rate the damping gives for its slopes; it stands still exactly where the wall rests.", "quantifier": "for all wall parameters and all solutions of the equations, one or two walls", "why_tests_cant": "a wrong sign in one of many terms shows up only as a slow gain of energy on some paths", "anchors": ["cmtj/models/domain_dynamics.py:compute_dynamics", "cmtj/models/domain_dynamics.py:MultilayerWallDynamics.multilayer_dw_llg"]}
{"id": "C130", "title": "The Walker field separates steady from turning walls", "statement": "A wall under a perpendicular field alone has a steady motion if and only if the field is at most alpha*|Hk|/2. Up to that field every solution settles: the angle converges and the velocity tends to Q*gamma*H*Delta/alpha. Beyond it the angle turns forever at no less than a fixed rate.", "quantifier": "for all wall parameters, fields, starting points and solutions", "why_tests_cant": "a limit over infinite time, with a sharp threshold in the field", "anchors": ["cmtj/models/domain_dynamics.py:compute_gamma_a", "cmtj/models/domain_dynamics.py:compute_gamma_b", "cmtj/models/domain_dynamics.py:MultilayerWallDynamics.multilayer_dw_llg"]}
{"id": "C131", "title": "A stack turned over behaves the same", "statement": "Listing the layers of a junction in the opposite order, with couplings to the layer above and below, dipole tensors and TOP/BOTTOM references exchanged, describes the same device: every run yields the same magnetisations, logged columns and resistances.", "quantifier": "for all junctions, all layers, solvers, drivers and runs", "why_tests_cant": "a mix-up of top and bottom in one of a dozen symmetric places is invisible for symmetric samples", "anchors": ["core/junction.hpp:Layer", "core/junction.hpp:Junction", "core/junction.hpp:runMultiLayerSolver", "core/junction.hpp:setIECDriver"]}
{"id": "C132", "title": "The thermal noise of different layers is independent", "statement": "The thermal fields of the layers of a simulation are independent of each other in all steps, so that averaging over K members divides the variance by K.", "quantifier": "for all layers, junctions, stacks and numbers of steps, in law", "why_tests_cant": "independence is a statement about laws; a run of one seed shows nothing", "anchors": ["core/junction.hpp:distribution", "core/junction.hpp:getStochasticLangevinVector", "core/stack.hpp:Stack"]}
{"id": "C133", "title": "Only products of field and time matter", "statement": "A sample whose fields, couplings, anisotropies, currents, torques and temperatures are s times larger and whose drivers are s times faster, run with times divided by s, goes through the same magnetisations: the columns of the log hold the same values, the recorded fields are s times larger and the times s times smaller.", "quantifier": "for all s > 0, layers, drivers, solvers, thermal noise and runs", "why_tests_cant": "a factor that is applied to one contribution of the field but not to another shows up only when all of them are scaled together", "anchors": ["core/junction.hpp:Layer", "core/junction.hpp:calculateHeff", "core/junction.hpp:solveLLG", "core/junction.hpp:getStochasticLangevinVector", "core/drivers.hpp:ScalarDriver"]}
{"id": "C134", "title": "Runs of groups converge to the coupled equations of motion", "statement": "When the time step is refined, a run of a group of junctions tends to the solution of the Landau-Lifshitz-Gilbert equations in which the named layer of every member feels, at every instant, the dipole fields of the named layers of all other members; the error at the end of the run is at most a constant times the time step, for all members and layers. The solution exists on every time interval.", "quantifier": "for all groups at rest from noise with the supplied interactions, positions at least 0.1 nm apart, smooth drivers, unit magnetisations, any number of members and layers (not: last member of one layer and another of several)", "why_tests_cant": "a field that is computed from the state of a wrong member or at a wrong moment still gives smooth and plausible curves; only a comparison with the exact solution for vanishing steps shows it", "anchors": ["core/reservoir.hpp:GroupInteraction", "core/reservoir.hpp:runSimulation", "core/reservoir.hpp:computeDipoleInteraction", "core/junction.hpp:runMultiLayerSolver", "core/junction.hpp:runSingleLayerSolver"]}
{"id": "C135", "title": "Runs of stacks converge to the coupled equations of motion", "statement": "When the time step is refined, a run of a series or parallel stack tends to the solution of the Landau-Lifshitz-Gilbert equations in which the current through every member is, at every instant, the driver's current times the factors given by the magnetisations of the members before it. The error at the end is at most a constant times the time step. This holds for delayed coupling (factors from the previous step) and for direct coupling (factors from members already stepped): both describe the same physics. The solution exists on every time interval.", "quantifier": "for all stacks (both kinds, any number of members, any coupling strengths and phase offsets, delayed or not) without noise, with smooth drivers and unit magnetisations", "why_tests_cant": "the delayed and the direct scheme never agree at any finite step, and a factor taken from a wrong member or a wrong moment still gives plausible curves; only the limit shows which equations are solved", "anchors": ["core/stack.hpp:runSimulation", "core/stack.hpp:computeCouplingCurrentDensity", "core/stack.hpp:setDelayed", "core/junction.hpp:runMultiLayerSolver", "core/junction.hpp:runSingleLayerSolver"]}
{"id": "C136", "title": "An antiferromagnetically coupled pair opens linearly and saturates where theory says", "statement": "Two layers of equal moment mu that are coupled antiferromagnetically with energy A, without anisotropy, end in a constant field F as textbooks say: below the saturation field Hs = 2A/mu the sum of their magnetisations becomes 2F/Hs (a linear magnetisation curve), from Hs on both layers end along the field. Antiparallel layers across the field flop open symmetrically. Without a field every pair that is not parallel ends antiparallel. Up to a constant the energy is mu/Hs times the squared distance from the open state.", "quantifier": "for all pairs of layers (any saturation magnetisations and thicknesses with equal products, any damping), all fields, all starts nearer to the open state than the collinear ones (and antiparallel starts across the field), all solvers", "why_tests_cant": "saturation is approached in the limit of long times and small steps; a test sees finitely many fields and starts and cannot tell a wrong factor in the exchange field from slow relaxation", "anchors": ["core/junction.hpp:calculateIEC_", "core/junction.hpp:calculateHeff", "core/junction.hpp:calculateLLGWithFieldTorque", "core/junction.hpp:setIECDriver", "core/junction.hpp:runSimulation"]}
{"id": "C137", "title": "Runs of reservoirs converge to the coupled equations of motion", "statement": "Runs of a reservoir converge, with an error at most proportional to the time step, to the solution of the coupled equations of motion in which every element obeys its own Landau-Lifshitz-Gilbert equation and feels, at every instant, the dipole fields of all other elements. (False of the code: the runs converge, but to the solution of equations in which the tensors and the magnetisations of the elements are paired wrongly.)", "quantifier": "for all layouts of elements at different places, all reservoirs built and used by any client program, all parameters and smooth drivers, all durations and small time steps", "why_tests_cant": "the limit of small steps has infinitely many runs; a run with one step size cannot tell a discretisation error from convergence to the solution of a different equation", "anchors": ["core/reservoir.hpp:Reservoir::runSolver", "core/reservoir.hpp:Reservoir::runSimulation", "core/reservoir.hpp:Reservoir::computeDipoleInteraction", "core/junction.hpp:rk4_stepDipoleInjection", "core/junction.hpp:calculateLLGWithFieldTorqueDipoleInjection"]}
{"id": "C138", "title": "A layer without anisotropy follows the textbook spiral", "statement": "A single layer whose only field points along a fixed axis (of any strength in time), with or without damping and with spin torques referred to the same axis, follows the closed-form curve of textbooks: it turns about the axis by the time integral of the precession rate while the component along the axis changes as tanh of the integral of the damping rate. In a constant field the layer crosses the plane across the axis at one time, the textbook switching time; without damping it is back after every Larmor period. Simulations converge to this curve, each solver with its order.", "quantifier": "for all axes, all starts, all dampings, all smooth field strengths and currents (constant, sine, Gaussian), all durations and small time steps, all solvers", "why_tests_cant": "a test compares one run with one curve up to a tolerance; it cannot separate the error of the integrator from a wrong constant in the equation, and cannot cover all strengths in time", "anchors": ["core/junction.hpp:solveLLG", "core/junction.hpp:calculateHeff", "core/junction.hpp:calculateLLGWithFieldTorque", "core/junction.hpp:rk4_step", "core/junction.hpp:runSimulation"]}
{"id": "C139", "title": "Beyond the Walker field walls turn and drift as in textbooks", "statement": "A wall under a perpendicular field alone, beyond the Walker field, makes half a turn in exactly the time pi*(1+alpha^2)/(gamma*sqrt(H^2-(alpha*Hk/2)^2)), in the direction of the field, and in that time moves on by the textbook mean velocity gamma*Delta/alpha*(H - sqrt(H^2-(alpha*Hk/2)^2)/(1+alpha^2)) times the period. The velocity averaged over long times tends to this value, which points along the field and is smaller than the mobility below the Walker field would give. Solutions exist for all times from every start.", "quantifier": "for all wall parameters, fields beyond the Walker field, starting points and solutions", "why_tests_cant": "the mean velocity is a limit over infinite time, and the period an exact identity for all starts; a test measures both for a few parameters up to the error of the integrator", "anchors": ["cmtj/models/domain_dynamics.py:compute_gamma_a", "cmtj/models/domain_dynamics.py:compute_gamma_b", "cmtj/models/domain_dynamics.py:MultilayerWallDynamics.multilayer_dw_llg"]}
{"id": "C140", "title": "Switching takes the time that the macrospin theory gives", "statement": "For a single layer whose anisotropy, demagnetisation, field and polariser share one axis, the component along the axis passes every value between the start and the pole at one time, the integral of the inverse of its rate: (1+alpha^2)/gamma times the integral of dz/((1-z^2)*push). Without spin torques and beyond the effective anisotropy field this is the textbook sum of logarithms. Simulations with small steps that end before that time have not passed the value, those that end after it have, with every solver.", "quantifier": "for all axial layers, fields, spin torques (STT of both forms, SOT), starts, target values between the start and the pole, all solvers, all durations, all sufficiently small steps", "why_tests_cant": "a test measures a few switching times on a grid of steps with a tolerance; a wrong prefactor of damping or torque changes the time by less than such tolerances or is absorbed in fitted constants", "anchors": ["core/junction.hpp:solveLLG", "core/junction.hpp:calculateHeff", "core/junction.hpp:calculateLLGWithFieldTorque", "core/junction.hpp:rk4_step", "core/junction.hpp:runSimulation"]}
{"id": "C141", "title": "Spin-torque oscillators precess at the angle and frequency of theory", "statement": "For a single layer whose anisotropy, demagnetisation, field and polariser share one axis: started at an angle where the spin torque balances the damping, the layer precesses at that angle with the frequency gamma/(1+alpha^2)*(H + Hk*z + field-like part), comes back after exactly one period, and simulations converge to this precession with the order of their solver. If the push of damping and spin torque points to that angle from both sides, every start away from the poles approaches it, the rate of turning tends to the same frequency, and simulations settle there with every solver.", "quantifier": "for all axial layers, fields, spin torques (STT of both forms, SOT), starts, all solvers, durations and sufficiently small steps", "why_tests_cant": "a limit over infinite time and all starts; a test sees the frequency of a few runs up to the resolution of the spectrum, so a wrong sign or factor of the field-like part goes unnoticed", "anchors": ["core/junction.hpp:solveLLG", "core/junction.hpp:calculateHeff", "core/junction.hpp:calculateLLGWithFieldTorque", "core/junction.hpp:rk4_step", "core/junction.hpp:runSimulation"]}
{"id": "C142", "title": "An LLGB layer left to itself relaxes to its equilibrium length, or dies out above the Curie temperature", "statement": "For LLGB layers at a steady temperature without anisotropy and external field the magnetisation keeps its direction and its length follows a closed form: below the Curie temperature it tends to the equilibrium magnetisation me, with the rate gamma*alpha_par/(chi*(1+alpha^2)); above it the magnetisation falls at least as fast as exp(-rate*t). Simulations converge to this closed form (second order with Heun), so long enough runs with small enough steps end as near the state of rest as desired.", "quantifier": "for all junctions of any number of layers, each below or above its Curie temperature, all starts, solvers, durations and sufficiently small steps", "why_tests_cant": "a limit over infinite time, all temperatures and all starts; a test sees a few relaxations within a tolerance, so a wrong factor of the susceptibility or the branch at the Curie temperature goes unnoticed", "anchors": ["core/llgb.hpp:LLGBLayer", "core/llgb.hpp:heunSolverStep", "core/llgb.hpp:eulerHeunSolverStep", "core/llgb.hpp:runSimulation"]}
{"id": "C143", "title": "The Stoner-Wohlfarth astroid separates fields that switch a layer from fields that do not", "statement": "For a single layer with an easy axis and the anisotropy field Hk in a constant field of any direction: outside the astroid |Hx/Hk|^(2/3)+|Hz/Hk|^(2/3)=1 there is exactly one state of least energy and simulations bring every start but the state of greatest energy to it, so the layer forgets where it came from. Inside the astroid there is an energy well around either end of the easy axis, on its own side of the equator, and simulations that start in a well stay in it. At 45 degrees the border is Hk/2.", "quantifier": "for all damped layers with one easy axis (material and shape), all fields, starts, all solvers, durations and sufficiently small steps", "why_tests_cant": "the border is a curve in a plane of fields and the claim is about infinite time and all starts; a test samples a few hysteresis loops, whose jumps move with the step of the field and the length of the runs", "anchors": ["core/junction.hpp:calculateHeff", "core/junction.hpp:calculateAnisotropy", "core/junction.hpp:solveLLG", "core/junction.hpp:rk4_step", "core/junction.hpp:runSimulation"]}
{"id": "C144", "title": "Pinned domain walls are held up to the depinning field and never beyond", "statement": "For a domain wall without currents in the periodic pinning field: there is a position and an angle at which the wall can rest exactly when the field along the easy axis is at most the amplitude of the pinning field (the depinning field). Beyond it the sum of the damped way, in wall widths, and of the wall angle grows at least at the rate gamma*(|Hz|-Hp), so the wall never stops for good. Below it every one and a half periods hold an energy well, and a wall that starts in a well stays between its ends forever.", "quantifier": "for all walls with damping, either orientation, all pinning strengths and periods, all fields, anisotropies and DMI, all paths of the equations and all times", "why_tests_cant": "being held is a claim about all times; a simulation that has not depinned yet looks like one that never will, and close to the depinning field the wall creeps arbitrarily slowly", "anchors": ["cmtj/models/domain_dynamics.py:get_pinning_field", "cmtj/models/domain_dynamics.py:compute_gamma_b", "cmtj/models/domain_dynamics.py:DomainWallDynamics"]}
{"id": "C145", "title": "The outcome of a run depends continuously on parameters, fields and start", "statement": "If the parameters, driver values and magnetisations of a noiseless junction are changed a little, a run with the same times still succeeds and its final and logged magnetisations change a little: all of them are continuous functions of everything that varies. In particular the state at the end of a run is a continuous function of the external field and of the state at the start, so the switching of a simulated hysteresis loop is steep but never a jump.", "quantifier": "for all junctions reachable by any calls, all topological spaces of parameters, all continuous families of junctions, all solvers, durations and steps, at every point where the run meets no jump of a driver and no zero magnetisation", "why_tests_cant": "continuity is about all sequences of parameters tending to a point; tests compare finitely many values and cannot tell a steep change from a jump", "anchors": ["core/junction.hpp:runSimulation", "core/junction.hpp:calculateHeff", "core/junction.hpp:solveLLG", "core/junction.hpp:rk4_step", "core/drivers.hpp:getCurrentScalarValue"]}
{"id": "C146", "title": "The outcome of a run is a differentiable function of the start", "statement": "At a start whose run does not pass a zero magnetisation the final magnetisations of a noiseless junction without spin transfer torque are four times continuously differentiable functions of the magnetisations at the start. With short steps from unit magnetisations this holds without further conditions, and the difference of two runs divided by the size of the deviation of their starts tends to a limit that is linear in the direction of the deviation. Lyapunov exponents and susceptibilities computed from differences of runs are therefore well defined.", "quantifier": "for all stacks of layers without noise and without spin transfer torque with different names, nonzero moments and smooth drivers, all starts, all solver modes, all run times, step sizes and write frequencies that pass the checks of runSimulation, and all directions of deviation", "why_tests_cant": "A test compares two runs at one size of the deviation; a difference quotient at one size says nothing about its limit, and a kink of the outcome lies at single starts that no sample meets.", "anchors": ["core/junction.hpp:runSimulation", "core/junction.hpp:rk4_step", "core/junction.hpp:heunSolverStep", "core/junction.hpp:solveLLG", "core/cvector.hpp:normalize"]}
{"id": "C147", "title": "Currents carry domain walls along as in textbooks", "statement": "A wall under a constant current that acts by spin transfer with the velocity u moves like the same wall without current in a field changed by (beta - alpha) u / (gamma Delta), seen from a frame that moves with u. Under a current alone a steady motion exists if and only if |beta - alpha| |u| is at most alpha gamma |hk| Delta / 2; every wall then settles at the velocity beta/alpha u. Beyond the threshold it turns for ever and drifts; without the nonadiabatic term the threshold is gamma |hk| Delta / 2, the wall stops below it and drifts at sqrt(u^2 - threshold^2)/(1 + alpha^2) above it.", "quantifier": "for all walls of fixed width without spin Hall and Rashba fields, pinning and edges, all currents, dampings, beta, anisotropies and both kinds of walls, all solutions of the equations from all starts and all times", "why_tests_cant": "Thresholds are single points at which a simulation takes arbitrarily long to tell settling from turning; a finite run can neither show a limit nor that no steady motion exists.", "anchors": ["cmtj/models/domain_dynamics.py:compute_gamma_a", "cmtj/models/domain_dynamics.py:compute_gamma_b", "cmtj/models/domain_dynamics.py:compute_dynamics", "cmtj/models/domain_dynamics.py:multilayer_dw_llg"]}
{"id": "C148", "title": "Chiral walls driven by the spin Hall effect reach the velocity of theory and saturate", "statement": "A wall on which only the DMI field d and the spin Hall field s of a constant current act has steady motions only with the velocity plus or minus gamma (pi/2) Delta d s / sqrt(s^2 + (alpha d)^2). Every wall that does not start exactly at the unstable angle settles at the velocity with the sign of d s, which is the same for up-down and down-up walls. However strong the current, the velocity stays below gamma (pi/2) Delta d, and it tends to that limit.", "quantifier": "for all walls of fixed width without in-plane anisotropy, spin transfer, Rashba field, other fields, pinning and edges, all currents, dampings and DMI constants, both kinds of walls, all solutions from all starts but the unstable angle", "why_tests_cant": "A run shows one start for a finite time; that all starts but one settle, the limit itself and the bound for all currents are statements about infinitely many runs.", "anchors": ["cmtj/models/domain_dynamics.py:compute_gamma_a", "cmtj/models/domain_dynamics.py:compute_gamma_b", "cmtj/models/domain_dynamics.py:compute_dynamics", "cmtj/models/domain_dynamics.py:get_Hdmi"]}
