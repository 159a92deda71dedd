import Verif.Model.PyError

/-!
# Attributes of converted variables

Source: `/repo/scripts/pre_process_data_in_hybrid_coordinates/vertical_interpolation_hybrid_to_pressure_poisson_filled_below_topo.py`, lines 136-150
(`update_new_variable_to_pressure`) and the calls in lines 203-208. Dimensions and coordinates are left out. Library behaviour assumed: `dict.update`
changes the dictionary and returns `None`; `ds[var].attrs` is the dictionary that the dataset holds, not a copy; `xr.DataArray(values, attrs=None)` has
no attributes.
-/

namespace Falwa.Script

/-- A dictionary of attributes. -/
abbrev Attributes := String → Option String

/-- `dict.update`: the dictionary afterwards and the returned value, which is `None`. -/
def Attributes.update (a b : Attributes) : Attributes × Option Attributes := (fun k => (b k).or (a k), none)

/-- The dictionary `{'description': …}` of line 145. -/
def describe (var : String) : Attributes :=
  fun k => if k = "description" then some (var ++ " interpolated from model levels to pressure coords in hPa") else none

/-- A variable of a dataset. -/
structure Variable (β : Type*) where
  val : β
  attrs : Attributes

/-- Variables of a dataset by name. -/
abbrev Variables (β : Type*) := String → Option (Variable β)

/-- `ds[var] = x`. -/
def Variables.set {β : Type*} (ds : Variables β) (var : String) (x : Variable β) : Variables β :=
  fun w => if w = var then some x else ds w

/-- `xr.DataArray(val, attrs=attrs)`. -/
def dataArray {β : Type*} (val : β) (attrs : Option Attributes) : Variable β := ⟨val, attrs.getD fun _ => none⟩

/-- Lines 136-150: the dataset of the model and the converted dataset, both afterwards. -/
def updateNewVariable {β : Type*} (var : String) (newData : β) (ds dsCopy : Variables β) (defaultAttrs : Option Attributes) :
    Except PyError (Variables β × Variables β) :=
  match defaultAttrs with
  | none =>
    match ds var with
    | none => .error .keyError
    | some x =>
      let u := x.attrs.update (describe var)
      .ok (ds.set var ⟨x.val, u.1⟩, dsCopy.set var (dataArray newData u.2))
  | some a =>
    let u := a.update (describe var)
    .ok (ds, dsCopy.set var (dataArray newData u.2))

/-- The calls in the loop over variables, lines 193-208: the variable with `default_attrs=None`, then, if `topography` is not `None`, `topo` with
`default_attrs={}`. Each item is the name, the interpolated values and the topography. -/
def convertAll {β : Type*} : List (String × β × Option β) → Variables β → Variables β → Except PyError (Variables β × Variables β)
  | [], ds, dsCopy => .ok (ds, dsCopy)
  | (var, val, topo) :: rest, ds, dsCopy =>
    (updateNewVariable var val ds dsCopy none).bind fun s =>
      match topo with
      | none => convertAll rest s.1 s.2
      | some t => (updateNewVariable "topo" t s.1 s.2 (some fun _ => none)).bind fun r => convertAll rest r.1 r.2

end Falwa.Script
