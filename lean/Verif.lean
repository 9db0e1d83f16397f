import Verif.Bytes.Props
import Verif.CharP.Props
import Verif.Layout.Props
import Verif.Owned.Props
import Verif.Dyn.Props
import Verif.Fut.Props
import Verif.Shim.Props
import Verif.Names.Props
import Verif.Headers.DocsProps
import Verif.Headers.DeclProps
import Verif.Headers.FnProps
import Verif.Headers.NameProps
import Verif.Headers.EnumProps
import Verif.Headers.MarshalProps
import Verif.Headers.StructProps
import Verif.Headers.GenProps
import Verif.Headers.RecProps
import Verif.Headers.PpProps
import Verif.Headers.AbiProps
import Verif.Headers.PathProps
import Verif.Js.NumProps
import Verif.Js.PtrProps
import Verif.Js.ConvProps
import Verif.Js.HelperProps
import Verif.Js.ClosureProps
import Verif.Js.TimeoutProps
import Verif.Js.ValidProps
import Verif.Js.AsyncProps
import Verif.BytesVt.Props
import Verif.BytesVt.StabbyProps
import Verif.Bytes.SerdeProps
import Verif.Export.Props
import Verif.Derive.Model
import Verif.Derive.Spec
import Verif.Derive.Lemmas
import Verif.Derive.Props
import Verif.Dyn.DeriveProps
import Verif.Wasm.Props
import Verif.Callback.Props
import Verif.JsLife.Props
import Verif.JsExport.LifetimesProps
import Verif.JsExport.RegisterProps
import Verif.Waker.Props
import Verif.Opaque.Props
import Verif.Headers.CheckProps
import Verif.Headers.CsProps
import Verif.Markers.Props
import Verif.Headers.CffiProps
import Verif.Headers.BuilderProps
import Verif.Headers.NamesProps
import Verif.Stabby.Props
import Verif.Poly.Props
import Verif.Print.Props
import Verif.Generics.Props
import Verif.DynGen.Props
import Verif.DocAttrs.Props
import Verif.DocAttrs.PlacedProps
import Verif.OpaqueBox.Props
import Verif.Libc.Props
