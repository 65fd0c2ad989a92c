import Verif.Common.Bytes
import Verif.Common.Loops
import Verif.Bytestream.Props
import Verif.Qoi.Props
import Verif.Imageprocs.Geometry
import Verif.Imageprocs.Pixel
import Verif.Image.Pipeline
import Verif.Bytestream.Stream
import Verif.Hdr.Props
import Verif.Psd.Props
import Verif.Bmp.Rle
import Verif.Farbfeld.Props
import Verif.Ppm.Props
import Verif.Inflate.Gzip
import Verif.Png.Filters
import Verif.Png.FilterProps
import Verif.Png.Simd
import Verif.Png.Expand
import Verif.Png.ExpandSpec
import Verif.Png.Post
import Verif.Png.Rows
import Verif.Png.Adam7
import Verif.Png.Adam7Props
import Verif.Png.Model
import Verif.Png.Chunks
import Verif.Png.File
import Verif.Png.Encode
import Verif.Png.Props
import Verif.Image.Channel
import Verif.Image.Split
import Verif.Image.Depth
import Verif.Image.GuessModel
import Verif.Image.Guess
import Verif.Image.ColorModel
import Verif.Image.Color
import Verif.Image.Grey
import Verif.Image.Encode
import Verif.Jpeg.IdctModel
import Verif.Jpeg.Idct
import Verif.Jpeg.IdctProps
import Verif.Jpeg.ColorModel
import Verif.Jpeg.ColorLemmas
import Verif.Jpeg.ColorProps
import Verif.Jpeg.UpsampleModel
import Verif.Jpeg.UpsampleLemmas
import Verif.Jpeg.PostLemmas
import Verif.Jpeg.PostLoop
import Verif.Jpeg.FrameModel
import Verif.Jpeg.FrameLemmas
import Verif.Jpeg.UpsampleProps
import Verif.Common.Canon
import Verif.Jpeg.HuffModel
import Verif.Jpeg.Huff
import Verif.Jpeg.HuffProps
import Verif.Jpeg.BitsModel
import Verif.Jpeg.Bits
import Verif.Jpeg.BitReader
import Verif.Jpeg.BitsProps
import Verif.Jpeg.Block
import Verif.Jpeg.BlockProps
import Verif.Jpeg.ProgModel
import Verif.Jpeg.Prog
import Verif.Jpeg.ProgProps
import Verif.Jpeg.ProgOrder
import Verif.Jxl.WriterProps
import Verif.Jxl.ColorProps
import Verif.Common.Prefix
import Verif.Jxl.AreaModel
import Verif.Jxl.Area
import Verif.Jxl.AreaProps
import Verif.Jxl.CodeModel
import Verif.Jxl.Lengths
import Verif.Jxl.Code
import Verif.Jxl.NewCode
import Verif.Jxl.CodeProps
import Verif.Inflate.TableModel
import Verif.Inflate.Table
import Verif.Inflate.TableLoops
import Verif.Inflate.TableTotal
import Verif.Inflate.TableProps
import Verif.Inflate.HuffModel
import Verif.Inflate.Rfc1951
import Verif.Inflate.Copy
import Verif.Inflate.HuffRead
import Verif.Inflate.HuffSlow
import Verif.Inflate.HuffFast
import Verif.Inflate.HuffHeader
import Verif.Inflate.HuffBlocks
import Verif.Inflate.HuffProps
import Verif.Jxl.DescModel
import Verif.Jxl.Rfc7932
import Verif.Jxl.Desc
import Verif.Jxl.DescProps
import Verif.Jxl.StreamModel
import Verif.Jxl.Iso18181
import Verif.Jxl.Samples
import Verif.Jxl.Sections
import Verif.Jxl.Header
import Verif.Jxl.Stream
import Verif.Jxl.StreamRead
import Verif.Jxl.StreamWhole
import Verif.Jxl.StreamProps
import Verif.Jxl.StreamOverflow
import Verif.Imageprocs.AreaModel
import Verif.Imageprocs.Area
import Verif.Imageprocs.AreaSpec
import Verif.Imageprocs.Median
import Verif.Imageprocs.AreaProps
import Verif.Imageprocs.FilterModel
import Verif.Imageprocs.FilterSpec
import Verif.Imageprocs.BoxBlur
import Verif.Imageprocs.FilterProps
import Verif.Jpeg.HeaderModel
import Verif.Jpeg.HeaderSpec
import Verif.Jpeg.HeaderLemmas
import Verif.Jpeg.HeaderFrame
import Verif.Jpeg.HeaderApps
import Verif.Jpeg.HeaderLoop
import Verif.Jpeg.HeaderSafe
import Verif.Jpeg.HeaderIcc
import Verif.Jpeg.HeaderProps
import Verif.Jpeg.McuModel
import Verif.Jpeg.McuBits
import Verif.Jpeg.McuSpec
import Verif.Jpeg.McuBlock
import Verif.Jpeg.McuScan
import Verif.Jpeg.McuRows
import Verif.Jpeg.McuFrame
import Verif.Jpeg.McuFile
import Verif.Jpeg.McuProps
import Verif.Jpeg.McuLimits
import Verif.Jpeg.McuSafe
import Verif.Jpeg.McuTotal
import Verif.Png.AnimModel
import Verif.Png.AnimSpec
import Verif.Png.AnimLemmas
import Verif.Png.AnimFrames
import Verif.Png.AnimRender
import Verif.Png.AnimProps
import Verif.Jpeg.ProgDriver
import Verif.Jpeg.ProgFileSpec
import Verif.Jpeg.ProgScanRun
import Verif.Jpeg.ProgBetween
import Verif.Jpeg.ProgScanStep
import Verif.Jpeg.ProgScanLoop
import Verif.Jpeg.ProgFinish
import Verif.Jpeg.ProgFile
import Verif.Jpeg.ProgFileProps
import Verif.Jpeg.ProgLimits
import Verif.Jpeg.ProgSafe
import Verif.Jpeg.ProgTotal
import Verif.Common.Float
import Verif.Imageprocs.EdgeModel
import Verif.Imageprocs.EdgeProps
import Verif.Imageprocs.CompositeModel
import Verif.Imageprocs.CompositeProps
import Verif.Imageprocs.OrientModel
import Verif.Imageprocs.OrientProps
import Verif.Imageprocs.ToneModel
import Verif.Imageprocs.ToneProps
import Verif.Imageprocs.ConvolveModel
import Verif.Imageprocs.ConvolveProps
import Verif.Gif.Model
import Verif.Gif.Props
import Verif.Common.FloatErr
import Verif.Imageprocs.MixModel
import Verif.Imageprocs.MixProps
import Verif.Imageprocs.ResizeModel
import Verif.Imageprocs.TransferProps
import Verif.Imageprocs.BilinearProps
import Verif.Imageprocs.SeparableProps
import Verif.Imageprocs.BilateralModel
import Verif.Imageprocs.BilateralProps
import Verif.Imageprocs.GaussModel
import Verif.Imageprocs.GaussProps
import Verif.Imageprocs.AffineModel
import Verif.Imageprocs.AffineProps
import Verif.Imageprocs.RotateProps
import Verif.Image.HsvModel
import Verif.Image.HsvSpec
import Verif.Image.HsvLemmas
import Verif.Image.HsvProps
import Verif.Image.HslProps
import Verif.Image.HsvDepth
import Verif.Jpeg.NeonProps
import Verif.Imageprocs.TransposeSseProps
import Verif.Imageprocs.EdgeFloatProps
import Verif.Jpeg.PortableProps
import Verif.Inflate.HcProps
import Verif.Image.Make
import Verif.Hdr.FileProps
import Verif.Image.Save
import Verif.Capi.Props
import Verif.Capi.Heap
import Verif.Capi.Decode
import Verif.Capi.Info
import Verif.Capi.More
import Verif.Imageprocs.UnsharpProps
import Verif.Image.File
import Verif.Capi.Ops
import Verif.Image.Arith
import Verif.Image.Options
import Verif.Image.Workflow
import Verif.Image.Numpy
