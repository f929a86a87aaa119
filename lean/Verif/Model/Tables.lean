import Verif.Model.GoStr
/-!
# The name tables of `/repo/db/field/data/{city,province,isp}.go`

Generated from the Go sources: each constant is the raw string literal of the source file, given line by line.
-/
namespace Uip
open Uip

/-- A string given by its characters (the kernel evaluates this faster than a string literal). -/
def cs (l : List Char) : Str := l.flatMap String.utf8EncodeChar

/-- `/repo/db/field/data/city.go:19-412` CityList. -/
def CityList : Str := joinByte 0x0A [
  cs ['万', '宁', '市', '\t', '万', '宁'],
  cs ['三', '亚', '市', '\t', '三', '亚'],
  cs ['三', '明', '市', '\t', '三', '明'],
  cs ['三', '沙', '市', '\t', '三', '沙'],
  cs ['上', '海', '市', '\t', '上', '海'],
  cs ['上', '饶', '市', '\t', '上', '饶'],
  cs ['东', '方', '市', '\t', '东', '方'],
  cs ['东', '莞', '市', '\t', '东', '莞'],
  cs ['东', '营', '市', '\t', '东', '营'],
  cs ['中', '卫', '市', '\t', '中', '卫'],
  cs ['中', '山', '市', '\t', '中', '山'],
  cs ['临', '汾', '市', '\t', '临', '汾'],
  cs ['临', '沂', '市', '\t', '临', '沂'],
  cs ['临', '沧', '市', '\t', '临', '沧'],
  cs ['临', '高', '县', '\t', '临', '高'],
  cs ['丹', '东', '市', '\t', '丹', '东'],
  cs ['丽', '水', '市', '\t', '丽', '水'],
  cs ['丽', '江', '市', '\t', '丽', '江'],
  cs ['乌', '海', '市', '\t', '乌', '海'],
  cs ['乐', '山', '市', '\t', '乐', '山'],
  cs ['九', '江', '市', '\t', '九', '江'],
  cs ['云', '林', '县', '\t', '云', '林'],
  cs ['云', '浮', '市', '\t', '云', '浮'],
  cs ['亳', '州', '市', '\t', '亳', '州'],
  cs ['仙', '桃', '市', '\t', '仙', '桃'],
  cs ['伊', '春', '市', '\t', '伊', '春'],
  cs ['佛', '山', '市', '\t', '佛', '山'],
  cs ['保', '定', '市', '\t', '保', '定'],
  cs ['保', '山', '市', '\t', '保', '山'],
  cs ['信', '阳', '市', '\t', '信', '阳'],
  cs ['儋', '州', '市', '\t', '儋', '州'],
  cs ['六', '安', '市', '\t', '六', '安'],
  cs ['兰', '州', '市', '\t', '兰', '州'],
  cs ['兴', '安', '盟', '\t', '兴', '安'],
  cs ['内', '江', '市', '\t', '内', '江'],
  cs ['包', '头', '市', '\t', '包', '头'],
  cs ['北', '京', '市', '\t', '北', '京'],
  cs ['北', '屯', '市', '\t', '北', '屯'],
  cs ['北', '海', '市', '\t', '北', '海'],
  cs ['十', '堰', '市', '\t', '十', '堰'],
  cs ['南', '京', '市', '\t', '南', '京'],
  cs ['南', '充', '市', '\t', '南', '充'],
  cs ['南', '宁', '市', '\t', '南', '宁'],
  cs ['南', '平', '市', '\t', '南', '平'],
  cs ['南', '投', '县', '\t', '南', '投'],
  cs ['南', '昌', '市', '\t', '南', '昌'],
  cs ['南', '通', '市', '\t', '南', '通'],
  cs ['南', '阳', '市', '\t', '南', '阳'],
  cs ['厦', '门', '市', '\t', '厦', '门'],
  cs ['双', '河', '市', '\t', '双', '河'],
  cs ['台', '东', '县', '\t', '台', '东'],
  cs ['台', '中', '市', '\t', '台', '中'],
  cs ['台', '北', '市', '\t', '台', '北'],
  cs ['台', '南', '市', '\t', '台', '南'],
  cs ['台', '州', '市', '\t', '台', '州'],
  cs ['合', '肥', '市', '\t', '合', '肥'],
  cs ['吉', '安', '市', '\t', '吉', '安'],
  cs ['吉', '林', '市', '\t', '吉', '林'],
  cs ['吕', '梁', '市', '\t', '吕', '梁'],
  cs ['吴', '忠', '市', '\t', '吴', '忠'],
  cs ['周', '口', '市', '\t', '周', '口'],
  cs ['咸', '宁', '市', '\t', '咸', '宁'],
  cs ['咸', '阳', '市', '\t', '咸', '阳'],
  cs ['哈', '密', '市', '\t', '哈', '密'],
  cs ['唐', '山', '市', '\t', '唐', '山'],
  cs ['商', '丘', '市', '\t', '商', '丘'],
  cs ['商', '洛', '市', '\t', '商', '洛'],
  cs ['嘉', '义', '县', '\t', '嘉', '义'],
  cs ['嘉', '义', '市', '\t', '嘉', '义'],
  cs ['嘉', '兴', '市', '\t', '嘉', '兴'],
  cs ['四', '平', '市', '\t', '四', '平'],
  cs ['固', '原', '市', '\t', '固', '原'],
  cs ['基', '隆', '市', '\t', '基', '隆'],
  cs ['大', '同', '市', '\t', '大', '同'],
  cs ['大', '庆', '市', '\t', '大', '庆'],
  cs ['大', '连', '市', '\t', '大', '连'],
  cs ['天', '水', '市', '\t', '天', '水'],
  cs ['天', '津', '市', '\t', '天', '津'],
  cs ['天', '门', '市', '\t', '天', '门'],
  cs ['太', '原', '市', '\t', '太', '原'],
  cs ['威', '海', '市', '\t', '威', '海'],
  cs ['娄', '底', '市', '\t', '娄', '底'],
  cs ['孝', '感', '市', '\t', '孝', '感'],
  cs ['宁', '德', '市', '\t', '宁', '德'],
  cs ['宁', '波', '市', '\t', '宁', '波'],
  cs ['安', '庆', '市', '\t', '安', '庆'],
  cs ['安', '康', '市', '\t', '安', '康'],
  cs ['安', '阳', '市', '\t', '安', '阳'],
  cs ['安', '顺', '市', '\t', '安', '顺'],
  cs ['定', '安', '县', '\t', '定', '安'],
  cs ['定', '西', '市', '\t', '定', '西'],
  cs ['宜', '兰', '县', '\t', '宜', '兰'],
  cs ['宜', '宾', '市', '\t', '宜', '宾'],
  cs ['宜', '昌', '市', '\t', '宜', '昌'],
  cs ['宜', '春', '市', '\t', '宜', '春'],
  cs ['宝', '鸡', '市', '\t', '宝', '鸡'],
  cs ['宣', '城', '市', '\t', '宣', '城'],
  cs ['宿', '州', '市', '\t', '宿', '州'],
  cs ['宿', '迁', '市', '\t', '宿', '迁'],
  cs ['屏', '东', '县', '\t', '屏', '东'],
  cs ['屯', '昌', '县', '\t', '屯', '昌'],
  cs ['山', '南', '市', '\t', '山', '南'],
  cs ['岳', '阳', '市', '\t', '岳', '阳'],
  cs ['崇', '左', '市', '\t', '崇', '左'],
  cs ['巴', '中', '市', '\t', '巴', '中'],
  cs ['常', '州', '市', '\t', '常', '州'],
  cs ['常', '德', '市', '\t', '常', '德'],
  cs ['平', '凉', '市', '\t', '平', '凉'],
  cs ['广', '元', '市', '\t', '广', '元'],
  cs ['广', '安', '市', '\t', '广', '安'],
  cs ['广', '州', '市', '\t', '广', '州'],
  cs ['庆', '阳', '市', '\t', '庆', '阳'],
  cs ['廊', '坊', '市', '\t', '廊', '坊'],
  cs ['延', '安', '市', '\t', '延', '安'],
  cs ['开', '封', '市', '\t', '开', '封'],
  cs ['张', '掖', '市', '\t', '张', '掖'],
  cs ['彰', '化', '县', '\t', '彰', '化'],
  cs ['徐', '州', '市', '\t', '徐', '州'],
  cs ['德', '州', '市', '\t', '德', '州'],
  cs ['德', '阳', '市', '\t', '德', '阳'],
  cs ['忻', '州', '市', '\t', '忻', '州'],
  cs ['怀', '化', '市', '\t', '怀', '化'],
  cs ['惠', '州', '市', '\t', '惠', '州'],
  cs ['成', '都', '市', '\t', '成', '都'],
  cs ['扬', '州', '市', '\t', '扬', '州'],
  cs ['承', '德', '市', '\t', '承', '德'],
  cs ['抚', '州', '市', '\t', '抚', '州'],
  cs ['抚', '顺', '市', '\t', '抚', '顺'],
  cs ['拉', '萨', '市', '\t', '拉', '萨'],
  cs ['揭', '阳', '市', '\t', '揭', '阳'],
  cs ['文', '昌', '市', '\t', '文', '昌'],
  cs ['新', '乡', '市', '\t', '新', '乡'],
  cs ['新', '余', '市', '\t', '新', '余'],
  cs ['新', '北', '市', '\t', '新', '北'],
  cs ['新', '竹', '县', '\t', '新', '竹'],
  cs ['新', '竹', '市', '\t', '新', '竹'],
  cs ['无', '锡', '市', '\t', '无', '锡'],
  cs ['日', '照', '市', '\t', '日', '照'],
  cs ['昆', '明', '市', '\t', '昆', '明'],
  cs ['昆', '玉', '市', '\t', '昆', '玉'],
  cs ['昌', '都', '市', '\t', '昌', '都'],
  cs ['昭', '通', '市', '\t', '昭', '通'],
  cs ['晋', '中', '市', '\t', '晋', '中'],
  cs ['晋', '城', '市', '\t', '晋', '城'],
  cs ['普', '洱', '市', '\t', '普', '洱'],
  cs ['曲', '靖', '市', '\t', '曲', '靖'],
  cs ['朔', '州', '市', '\t', '朔', '州'],
  cs ['朝', '阳', '市', '\t', '朝', '阳'],
  cs ['本', '溪', '市', '\t', '本', '溪'],
  cs ['来', '宾', '市', '\t', '来', '宾'],
  cs ['杭', '州', '市', '\t', '杭', '州'],
  cs ['松', '原', '市', '\t', '松', '原'],
  cs ['林', '芝', '市', '\t', '林', '芝'],
  cs ['枣', '庄', '市', '\t', '枣', '庄'],
  cs ['柳', '州', '市', '\t', '柳', '州'],
  cs ['株', '洲', '市', '\t', '株', '洲'],
  cs ['桂', '林', '市', '\t', '桂', '林'],
  cs ['桃', '园', '市', '\t', '桃', '园'],
  cs ['梅', '州', '市', '\t', '梅', '州'],
  cs ['梧', '州', '市', '\t', '梧', '州'],
  cs ['榆', '林', '市', '\t', '榆', '林'],
  cs ['武', '威', '市', '\t', '武', '威'],
  cs ['武', '汉', '市', '\t', '武', '汉'],
  cs ['毕', '节', '市', '\t', '毕', '节'],
  cs ['永', '州', '市', '\t', '永', '州'],
  cs ['汉', '中', '市', '\t', '汉', '中'],
  cs ['汕', '头', '市', '\t', '汕', '头'],
  cs ['汕', '尾', '市', '\t', '汕', '尾'],
  cs ['江', '门', '市', '\t', '江', '门'],
  cs ['池', '州', '市', '\t', '池', '州'],
  cs ['沈', '阳', '市', '\t', '沈', '阳'],
  cs ['沧', '州', '市', '\t', '沧', '州'],
  cs ['河', '池', '市', '\t', '河', '池'],
  cs ['河', '源', '市', '\t', '河', '源'],
  cs ['泉', '州', '市', '\t', '泉', '州'],
  cs ['泰', '安', '市', '\t', '泰', '安'],
  cs ['泰', '州', '市', '\t', '泰', '州'],
  cs ['泸', '州', '市', '\t', '泸', '州'],
  cs ['洛', '阳', '市', '\t', '洛', '阳'],
  cs ['济', '南', '市', '\t', '济', '南'],
  cs ['济', '宁', '市', '\t', '济', '宁'],
  cs ['济', '源', '市', '\t', '济', '源'],
  cs ['海', '东', '市', '\t', '海', '东'],
  cs ['海', '口', '市', '\t', '海', '口'],
  cs ['淄', '博', '市', '\t', '淄', '博'],
  cs ['淮', '北', '市', '\t', '淮', '北'],
  cs ['淮', '南', '市', '\t', '淮', '南'],
  cs ['淮', '安', '市', '\t', '淮', '安'],
  cs ['深', '圳', '市', '\t', '深', '圳'],
  cs ['清', '远', '市', '\t', '清', '远'],
  cs ['温', '州', '市', '\t', '温', '州'],
  cs ['渭', '南', '市', '\t', '渭', '南'],
  cs ['湖', '州', '市', '\t', '湖', '州'],
  cs ['湘', '潭', '市', '\t', '湘', '潭'],
  cs ['湛', '江', '市', '\t', '湛', '江'],
  cs ['滁', '州', '市', '\t', '滁', '州'],
  cs ['滨', '州', '市', '\t', '滨', '州'],
  cs ['漯', '河', '市', '\t', '漯', '河'],
  cs ['漳', '州', '市', '\t', '漳', '州'],
  cs ['潍', '坊', '市', '\t', '潍', '坊'],
  cs ['潜', '江', '市', '\t', '潜', '江'],
  cs ['潮', '州', '市', '\t', '潮', '州'],
  cs ['澄', '迈', '县', '\t', '澄', '迈'],
  cs ['澎', '湖', '县', '\t', '澎', '湖'],
  cs ['濮', '阳', '市', '\t', '濮', '阳'],
  cs ['烟', '台', '市', '\t', '烟', '台'],
  cs ['焦', '作', '市', '\t', '焦', '作'],
  cs ['玉', '林', '市', '\t', '玉', '林'],
  cs ['玉', '溪', '市', '\t', '玉', '溪'],
  cs ['珠', '海', '市', '\t', '珠', '海'],
  cs ['琼', '海', '市', '\t', '琼', '海'],
  cs ['白', '城', '市', '\t', '白', '城'],
  cs ['白', '山', '市', '\t', '白', '山'],
  cs ['白', '银', '市', '\t', '白', '银'],
  cs ['百', '色', '市', '\t', '百', '色'],
  cs ['益', '阳', '市', '\t', '益', '阳'],
  cs ['盐', '城', '市', '\t', '盐', '城'],
  cs ['盘', '锦', '市', '\t', '盘', '锦'],
  cs ['眉', '山', '市', '\t', '眉', '山'],
  cs ['福', '州', '市', '\t', '福', '州'],
  cs ['绍', '兴', '市', '\t', '绍', '兴'],
  cs ['绥', '化', '市', '\t', '绥', '化'],
  cs ['绵', '阳', '市', '\t', '绵', '阳'],
  cs ['聊', '城', '市', '\t', '聊', '城'],
  cs ['肇', '庆', '市', '\t', '肇', '庆'],
  cs ['自', '贡', '市', '\t', '自', '贡'],
  cs ['舟', '山', '市', '\t', '舟', '山'],
  cs ['芜', '湖', '市', '\t', '芜', '湖'],
  cs ['花', '莲', '县', '\t', '花', '莲'],
  cs ['苏', '州', '市', '\t', '苏', '州'],
  cs ['苗', '栗', '县', '\t', '苗', '栗'],
  cs ['茂', '名', '市', '\t', '茂', '名'],
  cs ['荆', '州', '市', '\t', '荆', '州'],
  cs ['荆', '门', '市', '\t', '荆', '门'],
  cs ['莆', '田', '市', '\t', '莆', '田'],
  cs ['莱', '芜', '市', '\t', '莱', '芜'],
  cs ['菏', '泽', '市', '\t', '菏', '泽'],
  cs ['萍', '乡', '市', '\t', '萍', '乡'],
  cs ['营', '口', '市', '\t', '营', '口'],
  cs ['蚌', '埠', '市', '\t', '蚌', '埠'],
  cs ['衡', '水', '市', '\t', '衡', '水'],
  cs ['衡', '阳', '市', '\t', '衡', '阳'],
  cs ['衢', '州', '市', '\t', '衢', '州'],
  cs ['襄', '阳', '市', '\t', '襄', '阳'],
  cs ['西', '宁', '市', '\t', '西', '宁'],
  cs ['西', '安', '市', '\t', '西', '安'],
  cs ['许', '昌', '市', '\t', '许', '昌'],
  cs ['贵', '港', '市', '\t', '贵', '港'],
  cs ['贵', '阳', '市', '\t', '贵', '阳'],
  cs ['贺', '州', '市', '\t', '贺', '州'],
  cs ['资', '阳', '市', '\t', '资', '阳'],
  cs ['赣', '州', '市', '\t', '赣', '州'],
  cs ['赤', '峰', '市', '\t', '赤', '峰'],
  cs ['辽', '源', '市', '\t', '辽', '源'],
  cs ['辽', '阳', '市', '\t', '辽', '阳'],
  cs ['达', '州', '市', '\t', '达', '州'],
  cs ['运', '城', '市', '\t', '运', '城'],
  cs ['连', '江', '县', '\t', '连', '江'],
  cs ['通', '化', '市', '\t', '通', '化'],
  cs ['通', '辽', '市', '\t', '通', '辽'],
  cs ['遂', '宁', '市', '\t', '遂', '宁'],
  cs ['遵', '义', '市', '\t', '遵', '义'],
  cs ['邢', '台', '市', '\t', '邢', '台'],
  cs ['那', '曲', '市', '\t', '那', '曲'],
  cs ['邯', '郸', '市', '\t', '邯', '郸'],
  cs ['邵', '阳', '市', '\t', '邵', '阳'],
  cs ['郑', '州', '市', '\t', '郑', '州'],
  cs ['郴', '州', '市', '\t', '郴', '州'],
  cs ['鄂', '州', '市', '\t', '鄂', '州'],
  cs ['酒', '泉', '市', '\t', '酒', '泉'],
  cs ['重', '庆', '市', '\t', '重', '庆'],
  cs ['金', '华', '市', '\t', '金', '华'],
  cs ['金', '昌', '市', '\t', '金', '昌'],
  cs ['金', '门', '县', '\t', '金', '门'],
  cs ['钦', '州', '市', '\t', '钦', '州'],
  cs ['铁', '岭', '市', '\t', '铁', '岭'],
  cs ['铜', '仁', '市', '\t', '铜', '仁'],
  cs ['铜', '川', '市', '\t', '铜', '川'],
  cs ['铜', '陵', '市', '\t', '铜', '陵'],
  cs ['银', '川', '市', '\t', '银', '川'],
  cs ['锦', '州', '市', '\t', '锦', '州'],
  cs ['镇', '江', '市', '\t', '镇', '江'],
  cs ['长', '春', '市', '\t', '长', '春'],
  cs ['长', '沙', '市', '\t', '长', '沙'],
  cs ['长', '治', '市', '\t', '长', '治'],
  cs ['阜', '新', '市', '\t', '阜', '新'],
  cs ['阜', '阳', '市', '\t', '阜', '阳'],
  cs ['阳', '江', '市', '\t', '阳', '江'],
  cs ['阳', '泉', '市', '\t', '阳', '泉'],
  cs ['陇', '南', '市', '\t', '陇', '南'],
  cs ['随', '州', '市', '\t', '随', '州'],
  cs ['雅', '安', '市', '\t', '雅', '安'],
  cs ['青', '岛', '市', '\t', '青', '岛'],
  cs ['鞍', '山', '市', '\t', '鞍', '山'],
  cs ['韶', '关', '市', '\t', '韶', '关'],
  cs ['高', '雄', '市', '\t', '高', '雄'],
  cs ['鸡', '西', '市', '\t', '鸡', '西'],
  cs ['鹤', '壁', '市', '\t', '鹤', '壁'],
  cs ['鹤', '岗', '市', '\t', '鹤', '岗'],
  cs ['鹰', '潭', '市', '\t', '鹰', '潭'],
  cs ['黄', '冈', '市', '\t', '黄', '冈'],
  cs ['黄', '山', '市', '\t', '黄', '山'],
  cs ['黄', '石', '市', '\t', '黄', '石'],
  cs ['黑', '河', '市', '\t', '黑', '河'],
  cs ['龙', '岩', '市', '\t', '龙', '岩'],
  cs ['中', '国', '台', '湾', '\t', '台', '湾'],
  cs ['中', '国', '香', '港', '\t', '香', '港'],
  cs ['和', '田', '地', '区', '\t', '和', '田'],
  cs ['喀', '什', '地', '区', '\t', '喀', '什'],
  cs ['塔', '城', '地', '区', '\t', '塔', '城'],
  cs ['那', '曲', '地', '区', '\t', '那', '曲'],
  cs ['阿', '里', '地', '区', '\t', '阿', '里'],
  cs ['七', '台', '河', '市', '\t', '七', '台', '河'],
  cs ['三', '门', '峡', '市', '\t', '三', '门', '峡'],
  cs ['五', '家', '渠', '市', '\t', '五', '家', '渠'],
  cs ['五', '指', '山', '市', '\t', '五', '指', '山'],
  cs ['佳', '木', '斯', '市', '\t', '佳', '木', '斯'],
  cs ['六', '盘', '水', '市', '\t', '六', '盘', '水'],
  cs ['双', '鸭', '山', '市', '\t', '双', '鸭', '山'],
  cs ['吐', '鲁', '番', '市', '\t', '吐', '鲁', '番'],
  cs ['哈', '尔', '滨', '市', '\t', '哈', '尔', '滨'],
  cs ['嘉', '峪', '关', '市', '\t', '嘉', '峪', '关'],
  cs ['平', '顶', '山', '市', '\t', '平', '顶', '山'],
  cs ['张', '家', '口', '市', '\t', '张', '家', '口'],
  cs ['张', '家', '界', '市', '\t', '张', '家', '界'],
  cs ['攀', '枝', '花', '市', '\t', '攀', '枝', '花'],
  cs ['日', '喀', '则', '市', '\t', '日', '喀', '则'],
  cs ['景', '德', '镇', '市', '\t', '景', '德', '镇'],
  cs ['牡', '丹', '江', '市', '\t', '牡', '丹', '江'],
  cs ['石', '嘴', '山', '市', '\t', '石', '嘴', '山'],
  cs ['石', '家', '庄', '市', '\t', '石', '家', '庄'],
  cs ['石', '河', '子', '市', '\t', '石', '河', '子'],
  cs ['秦', '皇', '岛', '市', '\t', '秦', '皇', '岛'],
  cs ['胡', '杨', '河', '市', '\t', '胡', '杨', '河'],
  cs ['葫', '芦', '岛', '市', '\t', '葫', '芦', '岛'],
  cs ['连', '云', '港', '市', '\t', '连', '云', '港'],
  cs ['铁', '门', '关', '市', '\t', '铁', '门', '关'],
  cs ['防', '城', '港', '市', '\t', '防', '城', '港'],
  cs ['阿', '拉', '善', '盟', '\t', '阿', '拉', '善'],
  cs ['阿', '拉', '尔', '市', '\t', '阿', '拉', '尔'],
  cs ['马', '鞍', '山', '市', '\t', '马', '鞍', '山'],
  cs ['驻', '马', '店', '市', '\t', '驻', '马', '店'],
  cs ['神', '农', '架', '林', '区', '\t', '神', '农', '架'],
  cs ['阿', '克', '苏', '地', '区', '\t', '阿', '克', '苏'],
  cs ['阿', '勒', '泰', '地', '区', '\t', '阿', '勒', '泰'],
  cs ['乌', '兰', '察', '布', '市', '\t', '乌', '兰', '察', '布'],
  cs ['乌', '鲁', '木', '齐', '市', '\t', '乌', '鲁', '木', '齐'],
  cs ['克', '拉', '玛', '依', '市', '\t', '克', '拉', '玛', '依'],
  cs ['可', '克', '达', '拉', '市', '\t', '可', '克', '达', '拉'],
  cs ['呼', '伦', '贝', '尔', '市', '\t', '呼', '伦', '贝', '尔'],
  cs ['呼', '和', '浩', '特', '市', '\t', '呼', '和', '浩', '特'],
  cs ['图', '木', '舒', '克', '市', '\t', '图', '木', '舒', '克'],
  cs ['巴', '彦', '淖', '尔', '市', '\t', '巴', '彦', '淖', '尔'],
  cs ['鄂', '尔', '多', '斯', '市', '\t', '鄂', '尔', '多', '斯'],
  cs ['锡', '林', '郭', '勒', '盟', '\t', '锡', '林', '郭', '勒'],
  cs ['齐', '齐', '哈', '尔', '市', '\t', '齐', '齐', '哈', '尔'],
  cs ['大', '兴', '安', '岭', '地', '区', '\t', '大', '兴', '安', '岭'],
  cs ['临', '夏', '回', '族', '自', '治', '州', '\t', '临', '夏'],
  cs ['乐', '东', '黎', '族', '自', '治', '县', '\t', '乐', '东'],
  cs ['凉', '山', '彝', '族', '自', '治', '州', '\t', '凉', '山'],
  cs ['大', '理', '白', '族', '自', '治', '州', '\t', '大', '理'],
  cs ['昌', '吉', '回', '族', '自', '治', '州', '\t', '昌', '吉'],
  cs ['昌', '江', '黎', '族', '自', '治', '县', '\t', '昌', '江'],
  cs ['果', '洛', '藏', '族', '自', '治', '州', '\t', '果', '洛'],
  cs ['楚', '雄', '彝', '族', '自', '治', '州', '\t', '楚', '雄'],
  cs ['海', '北', '藏', '族', '自', '治', '州', '\t', '海', '北'],
  cs ['海', '南', '藏', '族', '自', '治', '州', '\t', '海', '南'],
  cs ['澳', '门', '特', '别', '行', '政', '区', '\t', '澳', '门'],
  cs ['玉', '树', '藏', '族', '自', '治', '州', '\t', '玉', '树'],
  cs ['甘', '南', '藏', '族', '自', '治', '州', '\t', '甘', '南'],
  cs ['甘', '孜', '藏', '族', '自', '治', '州', '\t', '甘', '孜'],
  cs ['白', '沙', '黎', '族', '自', '治', '县', '\t', '白', '沙'],
  cs ['迪', '庆', '藏', '族', '自', '治', '州', '\t', '迪', '庆'],
  cs ['陵', '水', '黎', '族', '自', '治', '县', '\t', '陵', '水'],
  cs ['黄', '南', '藏', '族', '自', '治', '州', '\t', '黄', '南'],
  cs ['伊', '犁', '哈', '萨', '克', '自', '治', '州', '\t', '伊', '犁'],
  cs ['延', '边', '朝', '鲜', '族', '自', '治', '州', '\t', '延', '边'],
  cs ['怒', '江', '傈', '僳', '族', '自', '治', '州', '\t', '怒', '江'],
  cs ['保', '亭', '黎', '族', '苗', '族', '自', '治', '县', '\t', '保', '亭'],
  cs ['文', '山', '壮', '族', '苗', '族', '自', '治', '州', '\t', '文', '山'],
  cs ['琼', '中', '黎', '族', '苗', '族', '自', '治', '县', '\t', '琼', '中'],
  cs ['阿', '坝', '藏', '族', '羌', '族', '自', '治', '州', '\t', '阿', '坝'],
  cs ['博', '尔', '塔', '拉', '蒙', '古', '自', '治', '州', '\t', '博', '尔', '塔', '拉'],
  cs ['巴', '音', '郭', '楞', '蒙', '古', '自', '治', '州', '\t', '巴', '音', '郭', '楞'],
  cs ['西', '双', '版', '纳', '傣', '族', '自', '治', '州', '\t', '西', '双', '版', '纳'],
  cs ['德', '宏', '傣', '族', '景', '颇', '族', '自', '治', '州', '\t', '德', '宏'],
  cs ['恩', '施', '土', '家', '族', '苗', '族', '自', '治', '州', '\t', '恩', '施'],
  cs ['海', '西', '蒙', '古', '族', '藏', '族', '自', '治', '州', '\t', '海', '西'],
  cs ['湘', '西', '土', '家', '族', '苗', '族', '自', '治', '州', '\t', '湘', '西'],
  cs ['红', '河', '哈', '尼', '族', '彝', '族', '自', '治', '州', '\t', '红', '河'],
  cs ['黔', '南', '布', '依', '族', '苗', '族', '自', '治', '州', '\t', '黔', '南'],
  cs ['黔', '东', '南', '苗', '族', '侗', '族', '自', '治', '州', '\t', '黔', '东', '南'],
  cs ['黔', '西', '南', '布', '依', '族', '苗', '族', '自', '治', '州', '\t', '黔', '西', '南'],
  cs ['克', '孜', '勒', '苏', '柯', '尔', '克', '孜', '自', '治', '州', '\t', '克', '孜', '勒', '苏']]

/-- `/repo/db/field/data/province.go:19-52` ProvinceList. -/
def ProvinceList : Str := joinByte 0x0A [
  cs ['上', '海', '市', '\t', '上', '海'],
  cs ['云', '南', '省', '\t', '云', '南'],
  cs ['北', '京', '市', '\t', '北', '京'],
  cs ['吉', '林', '省', '\t', '吉', '林'],
  cs ['四', '川', '省', '\t', '四', '川'],
  cs ['天', '津', '市', '\t', '天', '津'],
  cs ['安', '徽', '省', '\t', '安', '徽'],
  cs ['山', '东', '省', '\t', '山', '东'],
  cs ['山', '西', '省', '\t', '山', '西'],
  cs ['广', '东', '省', '\t', '广', '东'],
  cs ['江', '苏', '省', '\t', '江', '苏'],
  cs ['江', '西', '省', '\t', '江', '西'],
  cs ['河', '北', '省', '\t', '河', '北'],
  cs ['河', '南', '省', '\t', '河', '南'],
  cs ['浙', '江', '省', '\t', '浙', '江'],
  cs ['海', '南', '省', '\t', '海', '南'],
  cs ['湖', '北', '省', '\t', '湖', '北'],
  cs ['湖', '南', '省', '\t', '湖', '南'],
  cs ['甘', '肃', '省', '\t', '甘', '肃'],
  cs ['福', '建', '省', '\t', '福', '建'],
  cs ['贵', '州', '省', '\t', '贵', '州'],
  cs ['辽', '宁', '省', '\t', '辽', '宁'],
  cs ['重', '庆', '市', '\t', '重', '庆'],
  cs ['陕', '西', '省', '\t', '陕', '西'],
  cs ['青', '海', '省', '\t', '青', '海'],
  cs ['中', '国', '台', '湾', '\t', '台', '湾'],
  cs ['中', '国', '香', '港', '\t', '香', '港'],
  cs ['黑', '龙', '江', '省', '\t', '黑', '龙', '江'],
  cs ['西', '藏', '自', '治', '区', '\t', '西', '藏'],
  cs ['内', '蒙', '古', '自', '治', '区', '\t', '内', '蒙', '古'],
  cs ['宁', '夏', '回', '族', '自', '治', '区', '\t', '宁', '夏'],
  cs ['广', '西', '壮', '族', '自', '治', '区', '\t', '广', '西'],
  cs ['澳', '门', '特', '别', '行', '政', '区', '\t', '澳', '门'],
  cs ['新', '疆', '维', '吾', '尔', '自', '治', '区', '\t', '新', '疆']]

/-- `/repo/db/field/data/isp.go:19-152` ISPList. -/
def ISPList : Str := joinByte 0x0A [
  cs ['A', 'S', 'N', ' ', 'f', 'o', 'r', ' ', 'S', 'h', 'a', 'n', 'd', 'o', 'n', 'g', ' ', 'P', 'r', 'o', 'v', 'i', 'n', 'c', 'i', 'a', 'l', ' ', 'N', 'e', 't', ' ', 'o', 'f', ' ', 'C', 'T', '\t', '电', '信'],
  cs ['A', 'S', 'N', ' ', 'f', 'o', 'r', ' ', 'T', 'I', 'A', 'N', 'J', 'I', 'N', ' ', 'P', 'r', 'o', 'v', 'i', 'n', 'c', 'i', 'a', 'l', ' ', 'N', 'e', 't', ' ', 'o', 'f', ' ', 'C', 'T', '\t', '电', '信'],
  cs ['B', 'e', 'i', 'h', 'a', 'i', '\t', '电', '信'],
  cs ['B', 'e', 'i', 'j', 'i', 'n', 'g', ' ', 'D', 'i', 'a', 'n', '-', 'X', 'i', 'n', '-', 'T', 'o', 'n', 'g', ' ', 'N', 'e', 't', 'w', 'o', 'r', 'k', ' ', 'T', 'e', 'c', 'h', 'n', 'o', 'l', 'o', 'g', 'i', 'e', 's', ' ', 'C', 'o', '.', ',', ' ', 'L', 't', 'd', '.', '\t', '鹏', '博', '士'],
  cs ['B', 'e', 'i', 'j', 'i', 'n', 'g', ' ', 'X', 'i', 'R', 'a', 'n', 'g', ' ', 'M', 'e', 'd', 'i', 'a', ' ', 'C', 'u', 'l', 't', 'u', 'r', 'a', 'l', ' ', 'C', 'o', '.', ',', ' ', 'L', 't', 'd', '.', '\t', '鹏', '博', '士'],
  cs ['C', 'E', 'R', 'N', 'E', 'T', ' ', 'N', 'e', 'w', ' ', 'T', 'e', 'c', 'h', 'n', 'o', 'l', 'o', 'g', 'y', ' ', 'C', 'o', '.', ',', ' ', 'L', 't', 'd', '\t', '教', '育', '网'],
  cs ['C', 'E', 'R', 'N', 'E', 'T', '2', ' ', 'I', 'X', ' ', 'a', 't', ' ', 'B', 'e', 'i', 'j', 'i', 'n', 'g', ' ', 'U', 'n', 'i', 'v', 'e', 'r', 's', 'i', 't', 'y', ' ', 'o', 'f', ' ', 'P', 'o', 's', 't', 's', ' ', 'a', 'n', 'd', ' ', 'T', 'e', 'l', 'e', 'c', 'o', 'm', 'm', 'u', 'n', 'i', 'c', 'a', 't', 'i', 'o', 'n', 's', '\t', '教', '育', '网'],
  cs ['C', 'E', 'R', 'N', 'E', 'T', '2', ' ', 'I', 'X', ' ', 'a', 't', ' ', 'H', 'u', 'a', 'z', 'h', 'o', 'n', 'g', ' ', 'U', 'n', 'i', 'v', 'e', 'r', 's', 'i', 't', 'y', ' ', 'o', 'f', ' ', 'S', 'c', 'i', 'e', 'n', 'c', 'e', ' ', 'a', 'n', 'd', ' ', 'T', 'e', 'c', 'h', 'n', 'o', 'l', 'o', 'g', 'y', '\t', '教', '育', '网'],
  cs ['C', 'E', 'R', 'N', 'E', 'T', '2', ' ', 'I', 'X', ' ', 'a', 't', ' ', 'J', 'i', 'l', 'i', 'n', ' ', 'U', 'n', 'i', 'v', 'e', 'r', 's', 'i', 't', 'y', '\t', '教', '育', '网'],
  cs ['C', 'E', 'R', 'N', 'E', 'T', '2', ' ', 'I', 'X', ' ', 'a', 't', ' ', 'P', 'e', 'k', 'i', 'n', 'g', ' ', 'U', 'n', 'i', 'v', 'e', 'r', 's', 'i', 't', 'y', '\t', '教', '育', '网'],
  cs ['C', 'E', 'R', 'N', 'E', 'T', '2', ' ', 'I', 'X', ' ', 'a', 't', ' ', 'S', 'h', 'a', 'n', 'd', 'o', 'n', 'g', ' ', 'U', 'n', 'i', 'v', 'e', 'r', 's', 'i', 't', 'y', '\t', '教', '育', '网'],
  cs ['C', 'E', 'R', 'N', 'E', 'T', '2', ' ', 'I', 'X', ' ', 'a', 't', ' ', 'S', 'h', 'a', 'n', 'g', 'h', 'a', 'i', ' ', 'J', 'i', 'a', 'o', 't', 'o', 'n', 'g', ' ', 'U', 'n', 'i', 'v', 'e', 'r', 's', 'i', 't', 'y', '\t', '教', '育', '网'],
  cs ['C', 'E', 'R', 'N', 'E', 'T', '2', ' ', 'I', 'X', ' ', 'a', 't', ' ', 'S', 'o', 'u', 't', 'h', ' ', 'C', 'h', 'i', 'n', 'a', ' ', 'U', 'n', 'i', 'v', 'e', 'r', 's', 'i', 't', 'y', ' ', 'o', 'f', ' ', 'T', 'e', 'c', 'h', 'n', 'o', 'l', 'o', 'g', 'y', '\t', '教', '育', '网'],
  cs ['C', 'E', 'R', 'N', 'E', 'T', '2', ' ', 'I', 'X', ' ', 'a', 't', ' ', 'S', 'o', 'u', 't', 'h', 'e', 'a', 's', 't', ' ', 'U', 'n', 'i', 'v', 'e', 'r', 's', 'i', 't', 'y', '\t', '教', '育', '网'],
  cs ['C', 'E', 'R', 'N', 'E', 'T', '2', ' ', 'I', 'X', ' ', 'a', 't', ' ', 'T', 'i', 'a', 'n', 'j', 'i', 'n', ' ', 'U', 'n', 'i', 'v', 'e', 'r', 's', 'i', 't', 'y', '\t', '教', '育', '网'],
  cs ['C', 'E', 'R', 'N', 'E', 'T', '2', ' ', 'I', 'X', ' ', 'a', 't', ' ', 'T', 's', 'i', 'n', 'g', 'h', 'u', 'a', ' ', 'U', 'n', 'i', 'v', 'e', 'r', 's', 'i', 't', 'y', '\t', '教', '育', '网'],
  cs ['C', 'E', 'R', 'N', 'E', 'T', '2', ' ', 'I', 'X', ' ', 'a', 't', ' ', 'U', 'n', 'i', 'v', 'e', 'r', 's', 'i', 't', 'y', ' ', 'o', 'f', ' ', 'E', 'l', 'e', 'c', 't', 'r', 'o', 'n', 'i', 'c', ' ', 'S', 'c', 'i', 'e', 'n', 'c', 'e', ' ', 'a', 'n', 'd', ' ', 'T', 'e', 'c', 'h', 'n', 'o', 'l', 'o', 'g', 'y', ' ', 'o', 'f', ' ', 'C', 'h', 'i', 'n', 'a', '\t', '教', '育', '网'],
  cs ['C', 'E', 'R', 'N', 'E', 'T', '2', ' ', 'I', 'X', ' ', 'a', 't', ' ', 'U', 'n', 'i', 'v', 'e', 'r', 's', 'i', 't', 'y', ' ', 'o', 'f', ' ', 'S', 'c', 'i', 'e', 'n', 'c', 'e', ' ', 'a', 'n', 'd', ' ', 'T', 'e', 'c', 'h', 'n', 'o', 'l', 'o', 'g', 'y', ' ', 'o', 'f', ' ', 'C', 'h', 'i', 'n', 'a', '\t', '教', '育', '网'],
  cs ['C', 'E', 'R', 'N', 'E', 'T', '2', ' ', 'I', 'X', ' ', 'a', 't', ' ', 'X', 'i', '\'', 'a', 'n', ' ', 'J', 'i', 'a', 'o', 't', 'o', 'n', 'g', ' ', 'U', 'n', 'i', 'v', 'e', 'r', 's', 'i', 't', 'y', '\t', '教', '育', '网'],
  cs ['C', 'E', 'R', 'N', 'E', 'T', '2', ' ', 'I', 'X', ' ', 'a', 't', ' ', 'Z', 'h', 'e', 'j', 'i', 'a', 'n', 'g', ' ', 'U', 'n', 'i', 'v', 'e', 'r', 's', 'i', 't', 'y', '\t', '教', '育', '网'],
  cs ['C', 'H', 'I', 'N', 'A', ' ', 'T', 'E', 'L', 'E', 'C', 'O', 'M', ' ', '(', 'A', 'M', 'E', 'R', 'I', 'C', 'A', 'S', ')', ' ', 'C', 'O', 'R', 'P', 'O', 'R', 'A', 'T', 'I', 'O', 'N', '\t', '电', '信'],
  cs ['C', 'H', 'I', 'N', 'A', ' ', 'T', 'E', 'L', 'E', 'C', 'O', 'M', '(', 'M', 'A', 'C', 'A', 'U', ')', ' ', 'C', 'O', 'M', 'P', 'A', 'N', 'Y', ' ', 'L', 'I', 'M', 'I', 'T', 'E', 'D', '\t', '电', '信'],
  cs ['C', 'H', 'I', 'N', 'A', ' ', 'T', 'I', 'E', 'T', 'O', 'N', 'G', ' ', 'S', 'H', 'A', 'N', 'G', 'H', 'A', 'I', '\t', '铁', '通'],
  cs ['C', 'H', 'I', 'N', 'A', ' ', 'U', 'N', 'I', 'C', 'O', 'M', ' ', ' ', 'I', 'n', 'd', 'u', 's', 't', 'r', 'i', 'a', 'l', ' ', ' ', 'I', 'n', 't', 'e', 'r', 'n', 'e', 't', ' ', 'B', 'a', 'c', 'k', 'b', 'o', 'n', 'e', '\t', '联', '通'],
  cs ['C', 'H', 'I', 'N', 'A', ' ', 'U', 'N', 'I', 'C', 'O', 'M', ' ', 'C', 'h', 'i', 'n', 'a', '1', '6', '9', ' ', 'B', 'a', 'c', 'k', 'b', 'o', 'n', 'e', '\t', '联', '通'],
  cs ['C', 'H', 'I', 'N', 'A', 'N', 'E', 'T', ' ', 'G', 'u', 'a', 'n', 'g', 'd', 'o', 'n', 'g', ' ', 'p', 'r', 'o', 'v', 'i', 'n', 'c', 'e', ' ', 'D', 'o', 'n', 'g', 'g', 'u', 'a', 'n', ' ', 'M', 'A', 'N', ' ', 'n', 'e', 't', 'w', 'o', 'r', 'k', '\t', '电', '信'],
  cs ['C', 'H', 'I', 'N', 'A', 'N', 'E', 'T', ' ', 'G', 'u', 'a', 'n', 'g', 'd', 'o', 'n', 'g', ' ', 'p', 'r', 'o', 'v', 'i', 'n', 'c', 'e', ' ', 'F', 'o', 's', 'h', 'a', 'n', ' ', 'M', 'A', 'N', ' ', 'n', 'e', 't', 'w', 'o', 'r', 'k', '\t', '电', '信'],
  cs ['C', 'H', 'I', 'N', 'A', 'N', 'E', 'T', ' ', 'G', 'u', 'a', 'n', 'g', 'd', 'o', 'n', 'g', ' ', 'p', 'r', 'o', 'v', 'i', 'n', 'c', 'e', ' ', 'S', 'h', 'e', 'n', 'z', 'h', 'e', 'n', ' ', 'M', 'A', 'N', ' ', 'n', 'e', 't', 'w', 'o', 'r', 'k', '\t', '电', '信'],
  cs ['C', 'H', 'I', 'N', 'A', 'N', 'E', 'T', ' ', 'G', 'u', 'a', 'n', 'g', 'd', 'o', 'n', 'g', ' ', 'p', 'r', 'o', 'v', 'i', 'n', 'c', 'e', ' ', 'n', 'e', 't', 'w', 'o', 'r', 'k', '\t', '电', '信'],
  cs ['C', 'H', 'I', 'N', 'A', 'N', 'E', 'T', ' ', 'G', 'u', 'i', 'z', 'h', 'o', 'u', ' ', 'p', 'r', 'o', 'v', 'i', 'n', 'c', 'e', ' ', 'n', 'e', 't', 'w', 'o', 'r', 'k', '\t', '电', '信'],
  cs ['C', 'H', 'I', 'N', 'A', 'N', 'E', 'T', ' ', 'H', 'u', 'b', 'e', 'i', ' ', 'p', 'r', 'o', 'v', 'i', 'n', 'c', 'e', ' ', 'n', 'e', 't', 'w', 'o', 'r', 'k', '\t', '电', '信'],
  cs ['C', 'H', 'I', 'N', 'A', 'N', 'E', 'T', ' ', 'J', 'i', 'a', 'n', 'g', 's', 'u', ' ', 'p', 'r', 'o', 'v', 'i', 'n', 'c', 'e', ' ', 'S', 'u', 'z', 'h', 'o', 'u', ' ', 't', 'a', 'i', 'h', 'u', ' ', 'I', 'D', 'C', ' ', 'n', 'e', 't', 'w', 'o', 'r', 'k', '\t', '电', '信'],
  cs ['C', 'H', 'I', 'N', 'A', 'N', 'E', 'T', ' ', 'J', 'i', 'a', 'n', 'g', 'x', ' ', 'p', 'r', 'o', 'v', 'i', 'n', 'c', 'e', ' ', 'I', 'D', 'C', ' ', 'n', 'e', 't', 'w', 'o', 'r', 'k', '\t', '电', '信'],
  cs ['C', 'H', 'I', 'N', 'A', 'N', 'E', 'T', ' ', 'L', 'i', 'a', 'o', 'n', 'i', 'n', 'g', ' ', 'p', 'r', 'o', 'v', 'i', 'n', 'c', 'e', ' ', 'D', 'a', 'l', 'i', 'a', 'n', ' ', 'M', 'A', 'N', ' ', 'n', 'e', 't', 'w', 'o', 'r', 'k', '\t', '电', '信'],
  cs ['C', 'H', 'I', 'N', 'A', 'N', 'E', 'T', ' ', 'N', 'I', 'N', 'G', 'X', 'I', 'A', ' ', 'p', 'r', 'o', 'v', 'i', 'n', 'c', 'e', ' ', 'Z', 'H', 'O', 'N', 'G', 'W', 'E', 'I', ' ', 'I', 'D', 'C', ' ', 'n', 'e', 't', 'w', 'o', 'r', 'k', '\t', '电', '信'],
  cs ['C', 'H', 'I', 'N', 'A', 'N', 'E', 'T', ' ', 'S', 'H', 'A', 'A', 'N', 'X', 'I', ' ', 'p', 'r', 'o', 'v', 'i', 'n', 'c', 'e', ' ', 'C', 'l', 'o', 'u', 'd', ' ', 'B', 'a', 's', 'e', ' ', 'n', 'e', 't', 'w', 'o', 'r', 'k', '\t', '电', '信'],
  cs ['C', 'H', 'I', 'N', 'A', 'N', 'E', 'T', ' ', 'S', 'i', 'C', 'h', 'u', 'a', 'n', ' ', 'T', 'e', 'l', 'e', 'c', 'o', 'm', ' ', 'I', 'n', 't', 'e', 'r', 'n', 'e', 't', ' ', 'D', 'a', 't', 'a', ' ', 'C', 'e', 'n', 't', 'e', 'r', '\t', '电', '信'],
  cs ['C', 'H', 'I', 'N', 'A', 'N', 'E', 'T', ' ', 'Y', 'u', 'n', 'n', 'a', 'n', ' ', 'p', 'r', 'o', 'v', 'i', 'n', 'c', 'e', ' ', 'I', 'D', 'C', '1', ' ', 'n', 'e', 't', 'w', 'o', 'r', 'k', '\t', '电', '信'],
  cs ['C', 'H', 'I', 'N', 'A', 'N', 'E', 'T', ' ', 'Y', 'u', 'n', 'n', 'a', 'n', ' ', 'p', 'r', 'o', 'v', 'i', 'n', 'c', 'e', ' ', 'I', 'D', 'C', '2', ' ', 'n', 'e', 't', 'w', 'o', 'r', 'k', '\t', '电', '信'],
  cs ['C', 'H', 'I', 'N', 'A', 'T', 'E', 'L', 'E', 'C', 'O', 'M', ' ', 'G', 'u', 'a', 'n', 'g', 'x', 'i', ' ', 'N', 'a', 'n', 'n', 'i', 'n', 'g', ' ', 'I', 'D', 'C', ' ', 'n', 'e', 't', 'w', 'o', 'r', 'k', 'd', 'e', 's', 'c', 'r', ':', ' ', 'N', 'a', 'n', 'n', 'i', 'n', 'g', ' ', ',', ' ', 'G', 'u', 'a', 'n', 'g', 'x', 'i', ' ', 'P', 'r', 'o', 'v', 'i', 'n', 'c', 'e', ',', ' ', 'P', '.', 'R', '.', 'C', 'h', 'i', 'n', 'a', '.', '\t', '电', '信'],
  cs ['C', 'H', 'I', 'N', 'A', 'T', 'E', 'L', 'E', 'C', 'O', 'M', ' ', 'J', 'I', 'A', 'N', 'G', 'S', 'U', ' ', 'p', 'r', 'o', 'v', 'i', 'n', 'c', 'e', ' ', 'N', 'A', 'N', 'T', 'O', 'N', 'G', ' ', 'M', 'A', 'N', ' ', 'n', 'e', 't', 'w', 'o', 'r', 'k', '\t', '电', '信'],
  cs ['C', 'H', 'I', 'N', 'A', 'T', 'E', 'L', 'E', 'C', 'O', 'M', ' ', 'J', 'i', 'a', 'n', 'g', 'S', 'u', ' ', 'Y', 'a', 'n', 'g', 'Z', 'h', 'o', 'u', ' ', 'I', 'D', 'C', ' ', 'n', 'e', 't', 'w', 'o', 'r', 'k', 'd', 'e', 's', 'c', 'r', ':', ' ', 'Y', 'a', 'n', 'g', 'Z', 'h', 'o', 'u', ' ', ',', ' ', 'J', 'i', 'a', 'n', 'g', 's', 'u', ' ', 'P', 'r', 'o', 'v', 'i', 'n', 'c', 'e', ',', ' ', 'P', '.', 'R', '.', 'C', 'h', 'i', 'n', 'a', '.', '\t', '电', '信'],
  cs ['C', 'H', 'I', 'N', 'A', 'T', 'E', 'L', 'E', 'C', 'O', 'M', ' ', 'J', 'i', 'a', 'n', 'g', 's', 'u', ' ', 'S', 'u', 'q', 'i', 'a', 'n', ' ', 'I', 'D', 'C', ' ', 'n', 'e', 't', 'w', 'o', 'r', 'k', '\t', '电', '信'],
  cs ['C', 'H', 'I', 'N', 'A', 'T', 'E', 'L', 'E', 'C', 'O', 'M', ' ', 'X', 'i', 'n', 'j', 'i', 'a', 'n', 'g', ' ', 'K', 'e', 'z', 'h', 'o', 'u', ' ', 'M', 'A', 'N', ' ', 'n', 'e', 't', 'w', 'o', 'r', 'k', '\t', '电', '信'],
  cs ['C', 'H', 'I', 'N', 'A', 'T', 'E', 'L', 'E', 'C', 'O', 'M', ' ', 'X', 'i', 'n', 'j', 'i', 'a', 'n', 'g', ' ', 'W', 'u', 'l', 'u', 'm', 'u', 'q', 'i', ' ', 'M', 'A', 'N', ' ', 'n', 'e', 't', 'w', 'o', 'r', 'k', '\t', '电', '信'],
  cs ['C', 'h', 'i', 'n', 'a', ' ', 'B', 'r', 'o', 'a', 'd', 'c', 'a', 's', 't', 'i', 'n', 'g', ' ', 'T', 'V', ' ', 'N', 'e', 't', '\t', '广', '电'],
  cs ['C', 'h', 'i', 'n', 'a', ' ', 'E', 'd', 'u', 'c', 'a', 't', 'i', 'o', 'n', ' ', 'a', 'n', 'd', ' ', 'R', 'e', 's', 'e', 'a', 'r', 'c', 'h', ' ', 'N', 'e', 't', 'w', 'o', 'r', 'k', ' ', '(', 'C', 'E', 'R', 'N', 'E', 'T', ')', '\t', '教', '育', '网'],
  cs ['C', 'h', 'i', 'n', 'a', ' ', 'E', 'd', 'u', 'c', 'a', 't', 'i', 'o', 'n', ' ', 'a', 'n', 'd', ' ', 'R', 'e', 's', 'e', 'a', 'r', 'c', 'h', ' ', 'N', 'e', 't', 'w', 'o', 'r', 'k', ' ', 'C', 'e', 'n', 't', 'e', 'r', '\t', '教', '育', '网'],
  cs ['C', 'h', 'i', 'n', 'a', ' ', 'M', 'o', 'b', 'i', 'l', 'e', '\t', '移', '动'],
  cs ['C', 'h', 'i', 'n', 'a', ' ', 'M', 'o', 'b', 'i', 'l', 'e', ' ', 'C', 'o', 'm', 'm', 'u', 'n', 'i', 'c', 'a', 't', 'i', 'o', 'n', 's', ' ', 'C', 'o', 'r', 'p', 'o', 'r', 'a', 't', 'i', 'o', 'n', '\t', '移', '动'],
  cs ['C', 'h', 'i', 'n', 'a', ' ', 'M', 'o', 'b', 'i', 'l', 'e', ' ', 'H', 'o', 'n', 'g', ' ', 'K', 'o', 'n', 'g', ' ', 'C', 'o', 'm', 'p', 'a', 'n', 'y', ' ', 'L', 'i', 'm', 'i', 't', 'e', 'd', '\t', '移', '动'],
  cs ['C', 'h', 'i', 'n', 'a', ' ', 'M', 'o', 'b', 'i', 'l', 'e', ' ', 'I', 'n', 't', 'e', 'r', 'n', 'a', 't', 'i', 'o', 'n', 'a', 'l', ' ', 'L', 'i', 'm', 'i', 't', 'e', 'd', '\t', '移', '动'],
  cs ['C', 'h', 'i', 'n', 'a', ' ', 'N', 'e', 'x', 't', ' ', 'G', 'e', 'n', 'e', 'r', 'a', 't', 'i', 'o', 'n', ' ', 'I', 'n', 't', 'e', 'r', 'n', 'e', 't', ' ', 'B', 'e', 'i', 'j', 'i', 'n', 'g', ' ', 'I', 'X', '\t', '教', '育', '网'],
  cs ['C', 'h', 'i', 'n', 'a', ' ', 'N', 'e', 'x', 't', ' ', 'G', 'e', 'n', 'e', 'r', 'a', 't', 'i', 'o', 'n', ' ', 'I', 'n', 't', 'e', 'r', 'n', 'e', 't', ' ', 'C', 'E', 'R', 'N', 'E', 'T', '2', '\t', '教', '育', '网'],
  cs ['C', 'h', 'i', 'n', 'a', ' ', 'T', 'e', 'l', 'e', 'c', 'o', 'm', '\t', '电', '信'],
  cs ['C', 'h', 'i', 'n', 'a', ' ', 'T', 'e', 'l', 'e', 'c', 'o', 'm', ' ', '(', 'G', 'r', 'o', 'u', 'p', ')', '\t', '电', '信'],
  cs ['C', 'h', 'i', 'n', 'a', ' ', 'T', 'e', 'l', 'e', 'c', 'o', 'm', ' ', 'B', 'a', 'c', 'k', 'b', 'o', 'n', 'e', '\t', '电', '信'],
  cs ['C', 'h', 'i', 'n', 'a', ' ', 'T', 'e', 'l', 'e', 'c', 'o', 'm', ' ', 'G', 'l', 'o', 'b', 'a', 'l', ' ', 'L', 'i', 'm', 'i', 't', 'e', 'd', '\t', '电', '信'],
  cs ['C', 'h', 'i', 'n', 'a', ' ', 'T', 'e', 'l', 'e', 'c', 'o', 'm', ' ', 'N', 'e', 'x', 't', ' ', 'G', 'e', 'n', 'e', 'r', 'a', 't', 'i', 'o', 'n', ' ', 'C', 'a', 'r', 'r', 'i', 'e', 'r', ' ', 'N', 'e', 't', 'w', 'o', 'r', 'k', '\t', '电', '信'],
  cs ['C', 'h', 'i', 'n', 'a', ' ', 'T', 'e', 'l', 'e', 'c', 'o', 'm', '(', 'G', 'r', 'o', 'u', 'p', ')', '\t', '电', '信'],
  cs ['C', 'h', 'i', 'n', 'a', ' ', 'T', 'i', 'e', 'T', 'o', 'n', 'g', ' ', 'T', 'e', 'l', 'e', 'c', 'o', 'm', 'm', 'u', 'n', 'i', 'c', 'a', 't', 'i', 'o', 'n', 's', ' ', 'C', 'o', 'r', 'p', 'o', 'r', 'a', 't', 'i', 'o', 'n', '\t', '铁', '通'],
  cs ['C', 'h', 'i', 'n', 'a', ' ', 'U', 'n', 'i', 'c', 'o', 'm', '\t', '联', '通'],
  cs ['C', 'h', 'i', 'n', 'a', ' ', 'U', 'n', 'i', 'c', 'o', 'm', ' ', ' ', 'I', 'P', ' ', 'n', 'e', 't', 'w', 'o', 'r', 'k', ' ', 'C', 'h', 'i', 'n', 'a', '1', '6', '9', ' ', 'G', 'u', 'a', 'n', 'g', 'd', 'o', 'n', 'g', ' ', 'p', 'r', 'o', 'v', 'i', 'n', 'c', 'e', '\t', '联', '通'],
  cs ['C', 'h', 'i', 'n', 'a', ' ', 'U', 'n', 'i', 'c', 'o', 'm', ' ', '(', 'H', 'o', 'n', 'g', ' ', 'K', 'o', 'n', 'g', ')', ' ', 'O', 'p', 'e', 'r', 'a', 't', 'i', 'o', 'n', 's', ' ', 'L', 'i', 'm', 'i', 't', 'e', 'd', '\t', '联', '通'],
  cs ['C', 'h', 'i', 'n', 'a', ' ', 'U', 'n', 'i', 'c', 'o', 'm', ' ', 'B', 'e', 'i', 'j', 'i', 'n', 'g', ' ', 'P', 'r', 'o', 'v', 'i', 'n', 'c', 'e', ' ', 'N', 'e', 't', 'w', 'o', 'r', 'k', '\t', '联', '通'],
  cs ['C', 'h', 'i', 'n', 'a', ' ', 'U', 'n', 'i', 'c', 'o', 'm', ' ', 'G', 'u', 'a', 'n', 'g', 'd', 'o', 'n', 'g', ' ', 'I', 'P', ' ', 'n', 'e', 't', 'w', 'o', 'r', 'k', '\t', '联', '通'],
  cs ['C', 'h', 'i', 'n', 'a', ' ', 'U', 'n', 'i', 'c', 'o', 'm', ' ', 'G', 'u', 'a', 'n', 'g', 'z', 'h', 'o', 'u', ' ', 'n', 'e', 't', 'w', 'o', 'r', 'k', '\t', '联', '通'],
  cs ['C', 'h', 'i', 'n', 'a', ' ', 'U', 'n', 'i', 'c', 'o', 'm', ' ', 'I', 'P', ' ', 'n', 'e', 't', 'w', 'o', 'r', 'k', '\t', '联', '通'],
  cs ['C', 'h', 'i', 'n', 'a', ' ', 'U', 'n', 'i', 'c', 'o', 'm', ' ', 'S', 'h', 'a', 'n', 'g', 'h', 'a', 'i', ' ', 'n', 'e', 't', 'w', 'o', 'r', 'k', '\t', '联', '通'],
  cs ['C', 'h', 'i', 'n', 'a', ' ', 'U', 'n', 'i', 'c', 'o', 'm', ' ', 'S', 'h', 'e', 'n', 'z', 'e', 'n', ' ', 'n', 'e', 't', 'w', 'o', 'r', 'k', '\t', '联', '通'],
  cs ['C', 'h', 'i', 'n', 'a', ' ', 'U', 'n', 'i', 'c', 'o', 'm', ' ', 'Z', 'h', 'o', 'n', 'g', 'w', 'e', 'i', ' ', 'C', 'l', 'o', 'u', 'd', '\t', '联', '通'],
  cs ['C', 'h', 'i', 'n', 'a', 'N', 'e', 't', ' ', 'J', 'i', 'a', 'n', 'g', 's', 'u', ' ', 'C', 'h', 'a', 'n', 'g', 'z', 'h', 'o', 'u', ' ', 'L', 'i', 'y', 'a', 'n', 'g', ' ', 'I', 'D', 'C', ' ', 'n', 'e', 't', 'w', 'o', 'r', 'k', '\t', '电', '信'],
  cs ['C', 'h', 'i', 'n', 'e', 's', 'e', ' ', 'A', 'c', 'a', 'd', 'e', 'm', 'y', ' ', 'o', 'f', ' ', 'T', 'e', 'l', 'e', 'c', 'o', 'm', 'm', 'u', 'n', 'i', 'c', 'a', 't', 'i', 'o', 'n', ' ', 'R', 'e', 's', 'e', 'a', 'r', 'c', 'h', '\t', '电', '信'],
  cs ['C', 'h', 'o', 'n', 'g', 'q', 'i', 'n', 'g', ' ', 'T', 'e', 'l', 'e', 'c', 'o', 'm', '\t', '电', '信'],
  cs ['C', 'l', 'o', 'u', 'd', ' ', 'C', 'o', 'm', 'p', 'u', 't', 'i', 'n', 'g', ' ', 'C', 'o', 'r', 'p', 'o', 'r', 'a', 't', 'i', 'o', 'n', '\t', '电', '信'],
  cs ['D', 'R', 'A', 'G', 'O', 'N', 'L', 'A', 'B', '\t', '教', '育', '网'],
  cs ['F', 'u', 'z', 'h', 'o', 'u', '\t', '电', '信'],
  cs ['G', 'u', 'a', 'n', 'g', 'd', 'o', 'n', 'g', '\t', '电', '信'],
  cs ['G', 'u', 'a', 'n', 'g', 'd', 'o', 'n', 'g', ' ', 'C', 'a', 'b', 'l', 'e', ' ', 'C', 'o', 'r', 'p', 'o', 'r', 'a', 't', 'i', 'o', 'n', ' ', 'L', 'i', 'm', 'i', 't', 'e', 'd', '\t', '广', '电'],
  cs ['H', 'E', 'X', 'I', 'E', ' ', 'I', 'n', 'f', 'o', 'r', 'm', 'a', 't', 'i', 'o', 'n', ' ', 't', 'e', 'c', 'h', 'n', 'o', 'l', 'o', 'g', 'y', ' ', 'C', 'o', '.', ',', ' ', 'L', 't', 'd', '.', '\t', '铁', '通'],
  cs ['H', 'e', 'b', 'e', 'i', ' ', 'B', 'r', 'o', 'a', 'd', 'c', 'a', 's', 't', 'i', 'n', 'g', '&', 'T', 'V', ' ', 'N', 'e', 't', 'w', 'o', 'r', 'k', '\t', '广', '电'],
  cs ['H', 'e', 'n', 'g', 'y', 'a', 'n', 'g', '\t', '电', '信'],
  cs ['H', 'u', 'a', 's', 'h', 'u', ' ', 'm', 'e', 'd', 'i', 'a', '&', 'N', 'e', 't', 'w', 'o', 'r', 'k', ' ', 'L', 'i', 'm', 'i', 't', 'e', 'd', '\t', '华', '数'],
  cs ['I', 'D', 'C', ',', ' ', 'C', 'h', 'i', 'n', 'a', ' ', 'T', 'e', 'l', 'e', 'c', 'o', 'm', 'm', 'u', 'n', 'i', 'c', 'a', 't', 'i', 'o', 'n', 's', ' ', 'C', 'o', 'r', 'p', 'o', 'r', 'a', 't', 'i', 'o', 'n', '\t', '电', '信'],
  cs ['I', 'O', 'T', ' ', 'G', 'u', 'a', 'n', 'g', 'd', 'o', 'n', 'g', ' ', 'n', 'e', 't', 'w', 'o', 'r', 'k', ',', ' ', 'C', 'h', 'i', 'n', 'a', 't', 'e', 'l', 'e', 'c', 'o', 'm', ',', ' ', 'P', '.', 'R', '.', 'C', 'h', 'i', 'n', 'a', '.', '\t', '电', '信'],
  cs ['I', 'O', 'T', ' ', 'J', 'i', 'a', 'n', 'g', 's', 'u', ' ', 'n', 'e', 't', 'w', 'o', 'r', 'k', ',', ' ', 'C', 'h', 'i', 'n', 'a', 't', 'e', 'l', 'e', 'c', 'o', 'm', ',', ' ', 'P', '.', 'R', '.', 'C', 'h', 'i', 'n', 'a', '.', '\t', '电', '信'],
  cs ['I', 'n', 'f', 'o', 'r', 'm', 'a', 't', 'i', 'o', 'n', ' ', 'C', 'e', 'n', 't', 'e', 'r', ',', ' ', 'M', 'i', 'n', 'i', 's', 't', 'r', 'y', ' ', 'o', 'f', ' ', 'S', 'c', 'i', ' ', 'a', 'n', 'd', ' ', 'T', 'e', 'c', 'h', '\t', '教', '育', '网'],
  cs ['J', 'I', 'N', 'H', 'U', 'A', ',', ' ', 'Z', 'H', 'E', 'J', 'I', 'A', 'N', 'G', ' ', 'P', 'r', 'o', 'v', 'i', 'n', 'c', 'e', ',', ' ', 'P', '.', 'R', '.', 'C', 'h', 'i', 'n', 'a', '.', '\t', '电', '信'],
  cs ['N', 'I', 'N', 'G', 'B', 'O', ',', ' ', 'Z', 'H', 'E', 'J', 'I', 'A', 'N', 'G', ' ', 'P', 'r', 'o', 'v', 'i', 'n', 'c', 'e', ',', ' ', 'P', '.', 'R', '.', 'C', 'h', 'i', 'n', 'a', '.', '\t', '电', '信'],
  cs ['N', 'a', 'n', 'j', 'i', 'n', 'g', '\t', '电', '信'],
  cs ['N', 'a', 'n', 't', 'o', 'n', '\t', '电', '信'],
  cs ['N', 'o', '.', '2', '8', '8', ',', 'F', 'u', '-', 'c', 'h', 'u', 'n', ' ', 'R', 'o', 'a', 'd', '\t', '电', '信'],
  cs ['N', 'o', '.', '2', '9', '3', ',', 'W', 'a', 'n', 'b', 'a', 'o', ' ', 'A', 'v', 'e', 'n', 'u', 'e', '\t', '电', '信'],
  cs ['N', 'o', '.', '3', ',', 'S', 'h', 'u', '-', 'M', 'a', ' ', 'R', 'o', 'a', 'd', '\t', '电', '信'],
  cs ['Q', 'U', 'A', 'N', 'T', 'I', 'L', ' ', 'N', 'E', 'T', 'W', 'O', 'R', 'K', 'S', ' ', 'I', 'N', 'C', '\t', '网', '宿'],
  cs ['Q', 'i', 'n', 'g', 'd', 'a', 'o', ',', '2', '6', '6', '0', '0', '0', '\t', '电', '信'],
  cs ['Q', 'u', 'a', 'n', 'z', 'h', 'o', 'u', '\t', '电', '信'],
  cs ['S', 'H', 'A', 'A', 'N', 'X', 'I', ' ', 'p', 'r', 'o', 'v', 'i', 'n', 'c', 'e', '\t', '电', '信'],
  cs ['S', 'X', 'B', 'C', 'T', 'V', ' ', ',', 'I', 'n', 't', 'e', 'r', 'n', 'e', 't', ' ', 'S', 'e', 'r', 'v', 'i', 'c', 'e', ' ', 'P', 'r', 'o', 'v', 'i', 'd', 'e', 'r', ',', '\t', '广', '电'],
  cs ['S', 'h', 'a', 'n', 'g', 'h', 'a', 'i', ' ', 'G', 'r', 'e', 'a', 't', ' ', 'W', 'a', 'l', 'l', ' ', 'B', 'r', 'o', 'a', 'd', 'b', 'a', 'n', 'd', ' ', 'N', 'e', 't', 'w', 'o', 'r', 'k', ' ', 'S', 'e', 'r', 'v', 'i', 'c', 'e', ' ', 'C', 'o', '.', ',', ' ', 'L', 't', 'd', '.', '\t', '鹏', '博', '士'],
  cs ['S', 'h', 'a', 'n', 'g', 'h', 'a', 'i', ' ', 'T', 'e', 'l', 'e', 'c', 'o', 'm', ' ', 'H', 'a', 'p', 'l', 'i', 'n', 'k', ' ', 'N', 'e', 't', 'w', 'o', 'r', 'k', ' ', 'C', 'o', ' ', 'L', 't', 'd', ' ', '(', 'H', 'a', 'p', 'l', 'i', 'n', 'k', ')', '\t', '电', '信'],
  cs ['T', 'i', 'a', 'n', 'j', 'i', 'j', ',', '3', '0', '0', '0', '0', '0', '\t', '电', '信'],
  cs ['T', 'r', 'a', 'n', 's', '-', 'E', 'u', 'r', 'a', 's', 'i', 'a', ' ', 'I', 'n', 'f', 'o', 'r', 'm', 'a', 't', 'i', 'o', 'n', ' ', 'N', 'e', 't', 'w', 'o', 'r', 'k', ' ', '(', 'T', 'E', 'I', 'N', '2', ')', ' ', '-', ' ', 'N', 'o', 'r', 't', 'h', '\t', '教', '育', '网'],
  cs ['T', 'r', 'a', 'n', 's', '-', 'E', 'u', 'r', 'a', 's', 'i', 'a', ' ', 'I', 'n', 'f', 'o', 'r', 'm', 'a', 't', 'i', 'o', 'n', ' ', 'N', 'e', 't', 'w', 'o', 'r', 'k', ' ', '(', 'T', 'E', 'I', 'N', '2', ')', ' ', '-', ' ', 'S', 'G', '\t', '教', '育', '网'],
  cs ['U', 'N', 'I', 'C', 'O', 'M', ' ', 'I', 'n', 'n', 'e', 'r', 'M', 'o', 'n', 'g', 'o', 'l', 'i', 'a', ' ', 'p', 'r', 'o', 'v', 'i', 'n', 'c', 'e', ' ', 'n', 'e', 't', 'w', 'o', 'r', 'k', '\t', '联', '通'],
  cs ['W', 'E', 'N', 'Z', 'H', 'O', 'U', ',', ' ', 'Z', 'H', 'E', 'J', 'I', 'A', 'N', 'G', ' ', 'P', 'r', 'o', 'v', 'i', 'n', 'c', 'e', ',', ' ', 'P', '.', 'R', '.', 'C', 'h', 'i', 'n', 'a', '.', '\t', '电', '信'],
  cs ['X', 'i', 'a', 'm', 'e', 'n', '\t', '电', '信'],
  cs ['a', 'l', 'i', 'y', 'u', 'n', '.', 'c', 'o', 'm', '\t', '阿', '里', '云'],
  cs ['a', 's', 'n', ' ', 'f', 'o', 'r', ' ', 'H', 'e', 'i', 'l', 'o', 'n', 'g', 'j', 'i', 'a', 'n', 'g', ' ', 'P', 'r', 'o', 'v', 'i', 'n', 'c', 'i', 'a', 'l', ' ', 'N', 'e', 't', ' ', 'o', 'f', ' ', 'C', 'T', '\t', '电', '信'],
  cs ['a', 's', 'n', ' ', 'f', 'o', 'r', ' ', 'L', 'i', 'a', 'o', 'n', 'i', 'n', 'g', ' ', 'P', 'r', 'o', 'v', 'i', 'n', 'c', 'i', 'a', 'l', ' ', 'N', 'e', 't', ' ', 'o', 'f', ' ', 'C', 'T', '\t', '电', '信'],
  cs ['c', 'a', 'p', 'i', 't', 'a', 'l', 'o', 'n', 'l', 'i', 'n', 'e', '.', 'n', 'e', 't', '\t', '首', '都', '在', '线'],
  cs ['c', 'h', 'i', 'n', 'a', ' ', 't', 'i', 'e', 't', 'o', 'n', 'g', ' ', 'S', 'h', 'a', 'n', 'd', 'o', 'n', 'g', ' ', 'n', 'e', 't', '\t', '铁', '通'],
  cs ['c', 'n', 'a', 'a', 'a', '.', 'c', 'o', 'm', '\t', 'H', 'o', 'n', 'g', ' ', 'K', 'o', 'n', 'g', ' ', 'S', 'a', 'n', ' ', 'A', 'i', ' ', 'N', 'e', 't', ' ', 'I', 'n', 't', '\'', 'l', ' ', 'L', 'i', 'm', 'i', 't', 'e', 'd'],
  cs ['e', 'f', 'l', 'y', 'c', 'l', 'o', 'u', 'd', '.', 'c', 'o', 'm', '\t', 'E', 'F', 'L', 'Y', ' ', 'N', 'E', 'T', 'W', 'O', 'R', 'K', ' ', 'L', 'I', 'M', 'I', 'T', 'E', 'D'],
  cs ['g', 'c', 'a', 'b', 'l', 'e', '.', 'c', 'o', 'm', '.', 'c', 'n', '\t', '广', '东', '广', '电'],
  cs ['h', 'u', 'a', 'w', 'e', 'i', '.', 'c', 'o', 'm', '\t', '华', '为'],
  cs ['j', 's', 'c', 'n', 'n', 'e', 't', '.', 'c', 'o', 'm', '\t', '江', '苏', '广', '电'],
  cs ['k', 'h', 'd', 'a', 't', 'a', 's', 'o', 'l', 'u', 't', 'i', 'o', 'n', 's', '.', 'c', 'o', 'm', '\t', '上', '海', '宽', '惠', '网', '络', '科', '技', '有', '限', '公', '司'],
  cs ['k', 's', 'y', 'u', 'n', '.', 'c', 'o', 'm', '\t', '金', '山', '云'],
  cs ['n', 'e', 't', 'e', 'a', 's', 'e', '.', 'c', 'o', 'm', '\t', '广', '州', '网', '易', '计', '算', '机', '系', '统', '有', '限', '公', '司'],
  cs ['t', 'e', 'n', 'c', 'e', 'n', 't', '.', 'c', 'o', 'm', '\t', '腾', '讯'],
  cs ['u', 'c', 'l', 'o', 'u', 'd', '.', 'c', 'n', '\t', '上', '海', '优', '刻', '得', '信', '息', '科', '技', '有', '限', '公', '司'],
  cs ['w', 'a', 'n', 'g', 's', 'u', '.', 'c', 'o', 'm', '\t', '网', '宿'],
  cs ['w', 'y', '.', 'c', 'o', 'm', '.', 'c', 'n', '\t', '广', '东', '唯', '一', '网', '络', '科', '技', '有', '限', '公', '司'],
  cs ['中', '国', '电', '信', '\t', '电', '信'],
  cs ['中', '国', '移', '动', '\t', '移', '动'],
  cs ['中', '国', '联', '通', '\t', '联', '通'],
  cs ['中', '国', '铁', '通', '\t', '铁', '通'],
  cs ['中', '国', '教', '育', '网', '\t', '教', '育', '网'],
  cs ['中', '国', '广', '电', '\t', '广', '电'],
  cs ['中', '国', '科', '技', '网', '\t', '科', '技', '网'],
  cs ['昆', '明', '广', '播', '电', '视', '网', '络', '有', '限', '责', '任', '公', '司', '\t', '云', '南', '广', '电'],
  cs ['广', '西', '广', '播', '电', '视', '信', '息', '网', '络', '股', '份', '有', '限', '公', '司', '\t', '广', '西', '广', '电'],
  cs ['H', 'U', 'A', 'W', 'E', 'I', ' ', 'C', 'L', 'O', 'U', 'D', 'S', '\t', '华', '为']]

end Uip
