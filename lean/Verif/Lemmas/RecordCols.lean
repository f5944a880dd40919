import Verif.Props.Logs

/-! What a row of the log holds in the energy columns of a layer. -/

set_option linter.unusedSectionVars false
set_option linter.unusedSimpArgs false

namespace Junction
variable {T : Type} [Scalar T]

theorem vals_Jbottom (l : Layer T) : Log.vals (layerEntries l true) (l.id ++ "_Jbottom") = [l.cache.Jbottom] := by
  unfold layerEntries energyComponent
  cases l.includeSOT <;> cases l.includeSTT <;> simp [Log.vals_cons, Log.vals_nil, String.append_assoc]
theorem vals_Jtop (l : Layer T) : Log.vals (layerEntries l true) (l.id ++ "_Jtop") = [l.cache.Jtop] := by
  unfold layerEntries energyComponent
  cases l.includeSOT <;> cases l.includeSTT <;> simp [Log.vals_cons, Log.vals_nil, String.append_assoc]
theorem vals_Hextx (l : Layer T) : Log.vals (layerEntries l true) (l.id ++ "_Hextx") = [l.cache.Hext.x] := by
  unfold layerEntries energyComponent
  cases l.includeSOT <;> cases l.includeSTT <;> simp [Log.vals_cons, Log.vals_nil, String.append_assoc]
theorem vals_Hexty (l : Layer T) : Log.vals (layerEntries l true) (l.id ++ "_Hexty") = [l.cache.Hext.y] := by
  unfold layerEntries energyComponent
  cases l.includeSOT <;> cases l.includeSTT <;> simp [Log.vals_cons, Log.vals_nil, String.append_assoc]
theorem vals_Hextz (l : Layer T) : Log.vals (layerEntries l true) (l.id ++ "_Hextz") = [l.cache.Hext.z] := by
  unfold layerEntries energyComponent
  cases l.includeSOT <;> cases l.includeSTT <;> simp [Log.vals_cons, Log.vals_nil, String.append_assoc]
theorem vals_Hiecx (l : Layer T) : Log.vals (layerEntries l true) (l.id ++ "_Hiecx") = [l.cache.HIEC.x] := by
  unfold layerEntries energyComponent
  cases l.includeSOT <;> cases l.includeSTT <;> simp [Log.vals_cons, Log.vals_nil, String.append_assoc]
theorem vals_Hiecy (l : Layer T) : Log.vals (layerEntries l true) (l.id ++ "_Hiecy") = [l.cache.HIEC.y] := by
  unfold layerEntries energyComponent
  cases l.includeSOT <;> cases l.includeSTT <;> simp [Log.vals_cons, Log.vals_nil, String.append_assoc]
theorem vals_Hiecz (l : Layer T) : Log.vals (layerEntries l true) (l.id ++ "_Hiecz") = [l.cache.HIEC.z] := by
  unfold layerEntries energyComponent
  cases l.includeSOT <;> cases l.includeSTT <;> simp [Log.vals_cons, Log.vals_nil, String.append_assoc]
theorem vals_Hanisx (l : Layer T) : Log.vals (layerEntries l true) (l.id ++ "_Hanisx") = [l.cache.HAnis.x] := by
  unfold layerEntries energyComponent
  cases l.includeSOT <;> cases l.includeSTT <;> simp [Log.vals_cons, Log.vals_nil, String.append_assoc]
theorem vals_Hanisy (l : Layer T) : Log.vals (layerEntries l true) (l.id ++ "_Hanisy") = [l.cache.HAnis.y] := by
  unfold layerEntries energyComponent
  cases l.includeSOT <;> cases l.includeSTT <;> simp [Log.vals_cons, Log.vals_nil, String.append_assoc]
theorem vals_Hanisz (l : Layer T) : Log.vals (layerEntries l true) (l.id ++ "_Hanisz") = [l.cache.HAnis.z] := by
  unfold layerEntries energyComponent
  cases l.includeSOT <;> cases l.includeSTT <;> simp [Log.vals_cons, Log.vals_nil, String.append_assoc]
theorem vals_Hdemagx (l : Layer T) : Log.vals (layerEntries l true) (l.id ++ "_Hdemagx") = [l.cache.Hdemag.x] := by
  unfold layerEntries energyComponent
  cases l.includeSOT <;> cases l.includeSTT <;> simp [Log.vals_cons, Log.vals_nil, String.append_assoc]
theorem vals_Hdemagy (l : Layer T) : Log.vals (layerEntries l true) (l.id ++ "_Hdemagy") = [l.cache.Hdemag.y] := by
  unfold layerEntries energyComponent
  cases l.includeSOT <;> cases l.includeSTT <;> simp [Log.vals_cons, Log.vals_nil, String.append_assoc]
theorem vals_Hdemagz (l : Layer T) : Log.vals (layerEntries l true) (l.id ++ "_Hdemagz") = [l.cache.Hdemag.z] := by
  unfold layerEntries energyComponent
  cases l.includeSOT <;> cases l.includeSTT <;> simp [Log.vals_cons, Log.vals_nil, String.append_assoc]
theorem vals_Hthx (l : Layer T) : Log.vals (layerEntries l true) (l.id ++ "_Hthx") = [l.cache.Hfluctuation.x] := by
  unfold layerEntries energyComponent
  cases l.includeSOT <;> cases l.includeSTT <;> simp [Log.vals_cons, Log.vals_nil, String.append_assoc]
theorem vals_Hthy (l : Layer T) : Log.vals (layerEntries l true) (l.id ++ "_Hthy") = [l.cache.Hfluctuation.y] := by
  unfold layerEntries energyComponent
  cases l.includeSOT <;> cases l.includeSTT <;> simp [Log.vals_cons, Log.vals_nil, String.append_assoc]
theorem vals_Hthz (l : Layer T) : Log.vals (layerEntries l true) (l.id ++ "_Hthz") = [l.cache.Hfluctuation.z] := by
  unfold layerEntries energyComponent
  cases l.includeSOT <;> cases l.includeSTT <;> simp [Log.vals_cons, Log.vals_nil, String.append_assoc]
theorem vals_Hflx (l : Layer T) : Log.vals (layerEntries l true) (l.id ++ "_Hflx") = if l.includeSOT then [l.cache.Hfl_v.x] else [] := by
  unfold layerEntries energyComponent
  cases l.includeSOT <;> cases l.includeSTT <;> simp [Log.vals_cons, Log.vals_nil, String.append_assoc]
theorem vals_Hfly (l : Layer T) : Log.vals (layerEntries l true) (l.id ++ "_Hfly") = if l.includeSOT then [l.cache.Hfl_v.y] else [] := by
  unfold layerEntries energyComponent
  cases l.includeSOT <;> cases l.includeSTT <;> simp [Log.vals_cons, Log.vals_nil, String.append_assoc]
theorem vals_Hflz (l : Layer T) : Log.vals (layerEntries l true) (l.id ++ "_Hflz") = if l.includeSOT then [l.cache.Hfl_v.z] else [] := by
  unfold layerEntries energyComponent
  cases l.includeSOT <;> cases l.includeSTT <;> simp [Log.vals_cons, Log.vals_nil, String.append_assoc]
theorem vals_Hdlx (l : Layer T) : Log.vals (layerEntries l true) (l.id ++ "_Hdlx") = if l.includeSOT then [l.cache.Hdl_v.x] else [] := by
  unfold layerEntries energyComponent
  cases l.includeSOT <;> cases l.includeSTT <;> simp [Log.vals_cons, Log.vals_nil, String.append_assoc]
theorem vals_Hdly (l : Layer T) : Log.vals (layerEntries l true) (l.id ++ "_Hdly") = if l.includeSOT then [l.cache.Hdl_v.y] else [] := by
  unfold layerEntries energyComponent
  cases l.includeSOT <;> cases l.includeSTT <;> simp [Log.vals_cons, Log.vals_nil, String.append_assoc]
theorem vals_Hdlz (l : Layer T) : Log.vals (layerEntries l true) (l.id ++ "_Hdlz") = if l.includeSOT then [l.cache.Hdl_v.z] else [] := by
  unfold layerEntries energyComponent
  cases l.includeSOT <;> cases l.includeSTT <;> simp [Log.vals_cons, Log.vals_nil, String.append_assoc]

end Junction
