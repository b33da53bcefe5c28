import Verif.AudioFix.Props
import Verif.AudioFix.PropsFar
import Verif.Base64.Props
import Verif.BitStream.Props
import Verif.Box.Props
import Verif.Buffer.Props
import Verif.Cenc.Props
import Verif.Clock.Props
import Verif.Cmdline.Props
import Verif.Cmdline.Props2
import Verif.Cmdline.Props3
import Verif.CodecData.Props
import Verif.Crc.Props
import Verif.Dash.Props
import Verif.Dash.Props2
import Verif.Dash.Props3
import Verif.Dash.PropsEx
import Verif.Date.Props
import Verif.Date.PropsText
import Verif.Demux.PropsAdts
import Verif.Demux.PropsBridge
import Verif.Demux.PropsNal
import Verif.Demux.PropsPacket
import Verif.Demux.PropsPes
import Verif.Demux.PropsRound
import Verif.Demux.PropsStream
import Verif.Demux.PropsUnits
import Verif.Demux.PropsUnitsEx
import Verif.Demux.PropsVideo
import Verif.Drm.Props
import Verif.Drm.Props2
import Verif.Drm.Props3
import Verif.Dynamic.Props
import Verif.Dynamic.PropsFiles
import Verif.Edit.Props
import Verif.Edit.Props2
import Verif.Edit.Props3
import Verif.Edit.Props4
import Verif.Esds.Props
import Verif.Esds.PropsFile
import Verif.Event.Props
import Verif.Event.PropsWake
import Verif.FileAsync.Props
import Verif.FileAsync.PropsCopy
import Verif.FileAsync.PropsData
import Verif.FileReader.Props
import Verif.FileReader.PropsEnd
import Verif.FileReader.PropsSeek
import Verif.Fragment.Props
import Verif.Gop.Props
import Verif.Gop.PropsList
import Verif.Gop.PropsPick
import Verif.H264.PropsAvcc
import Verif.H264.PropsNal
import Verif.H264.PropsSps
import Verif.HlsCrypt.Props
import Verif.Interleave.Props
import Verif.KeyText.Props
import Verif.Level.Props
import Verif.Level.Props2
import Verif.Level.Props3
import Verif.LoopThread.Props
import Verif.Moof.Props
import Verif.Moof.PropsAny
import Verif.Moof.PropsWitness
import Verif.Movie.Props
import Verif.Movie.PropsDuration
import Verif.Movie.PropsInit
import Verif.Parse.Props
import Verif.Parse.PropsBad
import Verif.Parse.PropsSteps
import Verif.Pes.Props
import Verif.Presentation.Props
import Verif.Promise.Props
import Verif.Psi.PropsRound
import Verif.Psi.PropsRouting
import Verif.Psi.PropsTables
import Verif.Psi.PropsWitness
import Verif.Publish.Props
import Verif.Publish.PropsEnd
import Verif.Publish.PropsWhole
import Verif.Queue.Props
import Verif.Queue.PropsGrow
import Verif.RangeMap.Props
import Verif.Rate.Props
import Verif.Reader.Props
import Verif.Reader.PropsFrames
import Verif.Reader.PropsMove
import Verif.Remux.Props
import Verif.Remux.PropsExample
import Verif.Remux.PropsMovie
import Verif.Render.Props
import Verif.Render.PropsHls
import Verif.Render.PropsHlsMain
import Verif.Render.PropsMpd
import Verif.Render.PropsSmooth
import Verif.Render.PropsText
import Verif.Render.PropsUrl
import Verif.Request.Props
import Verif.Resource.Props
import Verif.Slice.Props
import Verif.Slice.PropsEx
import Verif.Slice.PropsList
import Verif.Slice.PropsSlice
import Verif.Span.Props
import Verif.Strings.Props
import Verif.Tables.Props
import Verif.Tables.PropsOrder
import Verif.Tables.PropsRead
import Verif.Tables.PropsTime
import Verif.TimeCode.Props
import Verif.TimeCode.PropsLtc
import Verif.TimeCode.PropsStream
import Verif.Ts.Props
import Verif.Ts.PropsTables
import Verif.TsMux.Props
import Verif.TsMux.PropsHls
import Verif.TsMux.PropsMux
import Verif.TsMux.PropsTables
import Verif.Validation.Props
import Verif.Axioms
